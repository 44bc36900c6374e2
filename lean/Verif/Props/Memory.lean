import Verif.Lemmas.Memory
import Verif.Props.Core

/-! Property C05: loads and stores. -/
namespace Pas
open Spec

theorem insn_8 {lib : Lib} {code : List Byte} {maxpc : Word} {s : VM} {op : Op} {a : Byte}
    {w : Word} (h : Insn code maxpc s op a w) (h8 : hasArg8 op.toByte = false)
    (h16 : hasArg16 op.toByte = false) :
    execute lib code maxpc s = pexec8 s (some op) :=
  execute_8 (at_of_next h.next) h8 h16

theorem insn_16 {lib : Lib} {code : List Byte} {maxpc : Word} {s : VM} {op : Op} {a : Byte}
    {w : Word} (h : Insn code maxpc s op a w) (h8 : hasArg8 op.toByte = true)
    (h16 : hasArg16 op.toByte = false) :
    execute lib code maxpc s = pexec16 lib s (some op) a :=
  execute_16 (at_of_next h.next) h8 h16 (h.arg8 h8)

theorem insn_24 {lib : Lib} {code : List Byte} {maxpc : Word} {s : VM} {op : Op} {a : Byte}
    {w : Word} (h : Insn code maxpc s op a w) (h8 : hasArg8 op.toByte = false)
    (h16 : hasArg16 op.toByte = true) :
    execute lib code maxpc s = pexec24 lib s (some op) w := by
  have := h.arg16 h16
  rw [h8] at this
  obtain ⟨b1, b0, h1, h0, rfl⟩ := operand16_append this
  exact execute_24 (at_of_next h.next) h8 h16 h1 h0

theorem insn_32 {lib : Lib} {code : List Byte} {maxpc : Word} {s : VM} {op : Op} {a : Byte}
    {w : Word} (h : Insn code maxpc s op a w) (h8 : hasArg8 op.toByte = true)
    (h16 : hasArg16 op.toByte = true) :
    execute lib code maxpc s = pexec32 lib s (some op) a w := by
  have := h.arg16 h16
  rw [h8] at this
  obtain ⟨b1, b0, h1, h0, rfl⟩ := operand16_append this
  exact execute_32 (at_of_next h.next) h8 h16 (h.arg8 h8) h1 h0

theorem stores_one {s : VM} {m : Nat → Word} {len : Nat} (h : 1 ≤ s.top) :
    Stores s { s with sp := s.sp - 2#16, pc := s.pc + BitVec.ofNat 16 len, mem := m } 1 len := by
  refine ⟨rfl, ?_, rfl⟩
  simp only [VM.top] at h
  show (s.sp - 2#16).toNat + 2 * 1 = s.sp.toNat
  bv_omega

theorem stores_two {s : VM} {m : Nat → Word} {len : Nat} (h : 2 ≤ s.top) :
    Stores s { s with sp := s.sp - 4#16, pc := s.pc + BitVec.ofNat 16 len, mem := m } 2 len := by
  refine ⟨rfl, ?_, rfl⟩
  simp only [VM.top] at h
  show (s.sp - 4#16).toNat + 2 * 2 = s.sp.toNat
  bv_omega

/-- **C05** (word stores): exactly the addressed word changes. -/
theorem C05_store_word (lib : Lib) (code : List Byte) (maxpc : Word) (s : VM) (op : Op)
    (a : Byte) (w addr : Word) (n : Nat) (hi : Insn code maxpc s op a w)
    (hm : StoreAddr s a w (opnd s 1) op .word n addr) (hr : Room s (n + 2))
    (ha : addr.toNat / 2 < s.words) :
    ∃ s', execute lib code maxpc s = .ok (eNOERROR, s') ∧
      Stores s s' (n + 1) (insnSize op.toByte) ∧
      ∀ i, s'.mem i = if i = addr.toNat / 2 then opnd s 0 else s.mem i := by
  obtain ⟨hr1, hr2⟩ := hr
  change n + 2 ≤ s.top + 1 at hr1
  cases hm with
  | st =>
    rw [insn_24 hi (by decide) (by decide), pexec24, VM.pop_eq s hr2]
    simp only [Res.ok_bind, VM.putStack]
    rw [VM.wr_eq _ _ (by exact ha)]
    exact ⟨_, rfl, stores_one (by omega), fun i => rfl⟩
  | sti =>
    rw [insn_8 hi (by decide) (by decide), pexec8, VM.pop_eq s hr2]
    simp only [Res.ok_bind, VM.putStack]
    rw [pop2_eq s (by omega) hr2]
    simp only [Res.ok_bind]
    rw [VM.wr_eq _ _ (by exact ha)]
    exact ⟨_, rfl, stores_two (by omega), fun i => rfl⟩
  | stx =>
    rw [insn_24 hi (by decide) (by decide), pexec24, VM.pop_eq s hr2]
    simp only [Res.ok_bind, VM.putStack]
    rw [pop2_eq s (by omega) hr2]
    simp only [Res.ok_bind]
    rw [BitVec.add_comm (s.mem (s.top - 1)), VM.wr_eq _ _ (by exact ha)]
    exact ⟨_, rfl, stores_two (by omega), fun i => rfl⟩
  | sts h =>
    rw [insn_32 hi (by decide) (by decide), pexec32]
    simp only [signExtend16]
    rw [getBase_of h]
    simp only [Res.ok_bind]
    rw [VM.pop_eq s hr2]
    simp only [Res.ok_bind, VM.putStack]
    rw [VM.wr_eq _ _ (by exact ha)]
    exact ⟨_, rfl, stores_one (by omega), fun i => rfl⟩
  | @stsx base h =>
    rw [insn_32 hi (by decide) (by decide), pexec32, VM.pop_eq s hr2]
    simp only [Res.ok_bind, VM.putStack]
    rw [pop2_eq s (by omega) hr2]
    simp only [Res.ok_bind, signExtend16]
    rw [getBase_sp, getBase_of h]
    simp only [Res.ok_bind]
    rw [BitVec.add_comm (s.mem (s.top - 1)), VM.wr_eq _ _ (by exact ha)]
    exact ⟨_, rfl, stores_two (by omega), fun i => rfl⟩

/-- **C05** (byte stores): exactly the addressed byte changes. -/
theorem C05_store_byte (lib : Lib) (code : List Byte) (maxpc : Word) (s : VM) (op : Op)
    (a : Byte) (w addr : Word) (n : Nat) (hi : Insn code maxpc s op a w)
    (hm : StoreAddr s a w (opnd s 1) op .sbyte n addr) (hr : Room s (n + 2))
    (ha : addr.toNat / 2 < s.words) :
    ∃ s', execute lib code maxpc s = .ok (eNOERROR, s') ∧
      Stores s s' (n + 1) (insnSize op.toByte) ∧
      ∀ b, byte s'.mem b = if b = addr.toNat then (opnd s 0).truncate 8 else byte s.mem b := by
  obtain ⟨hr1, hr2⟩ := hr
  change n + 2 ≤ s.top + 1 at hr1
  have ha' : addr.toNat < 2 * s.words := by omega
  cases hm with
  | stb =>
    rw [insn_24 hi (by decide) (by decide), pexec24, VM.pop_eq s hr2]
    simp only [Res.ok_bind, VM.wrB]
    rw [if_pos (by exact ha')]
    exact ⟨_, rfl, stores_one (by omega), fun i => byte_updB _ _ _ _⟩
  | stib =>
    rw [insn_8 hi (by decide) (by decide), pexec8, VM.pop_eq s hr2]
    simp only [Res.ok_bind, VM.wrB]
    rw [pop2_eq s (by omega) hr2]
    simp only [Res.ok_bind]
    rw [if_pos (by exact ha')]
    exact ⟨_, rfl, stores_two (by omega), fun i => byte_updB _ _ _ _⟩
  | stxb =>
    rw [insn_24 hi (by decide) (by decide), pexec24, VM.pop_eq s hr2]
    simp only [Res.ok_bind, VM.wrB]
    rw [pop2_eq s (by omega) hr2]
    simp only [Res.ok_bind]
    rw [BitVec.add_comm (s.mem (s.top - 1)), if_pos (by exact ha')]
    exact ⟨_, rfl, stores_two (by omega), fun i => byte_updB _ _ _ _⟩
  | stsb h =>
    rw [insn_32 hi (by decide) (by decide), pexec32]
    simp only [signExtend16]
    rw [getBase_of h]
    simp only [Res.ok_bind]
    rw [VM.pop_eq s hr2]
    simp only [Res.ok_bind, VM.wrB]
    rw [if_pos (by exact ha')]
    exact ⟨_, rfl, stores_one (by omega), fun i => byte_updB _ _ _ _⟩
  | @stsxb base h =>
    rw [insn_32 hi (by decide) (by decide), pexec32, VM.pop_eq s hr2]
    simp only [Res.ok_bind, VM.wrB]
    rw [pop2_eq s (by omega) hr2]
    simp only [Res.ok_bind, signExtend16]
    rw [getBase_sp, getBase_of h]
    simp only [Res.ok_bind]
    rw [BitVec.add_comm (s.mem (s.top - 1)), if_pos (by exact ha')]
    exact ⟨_, rfl, stores_two (by omega), fun i => byte_updB _ _ _ _⟩

theorem loads_push {s : VM} {v : Word} {len : Nat} (h : s.top + 1 < 32768) :
    Loads s { s with
      sp := s.sp + 2#16, pc := s.pc + BitVec.ofNat 16 len,
      mem := updW s.mem (s.top + 1) v } 0 1 len := by
  refine ⟨rfl, ?_, rfl, ?_⟩
  · simp only [VM.top] at h
    show (s.sp + 2#16).toNat + 2 * 0 = s.sp.toNat + 2 * 1
    bv_omega
  · intro i hi
    apply updW_other
    simp only [VM.top]; omega

theorem loads_set {s : VM} {v : Word} {len : Nat} :
    Loads s { s with
      pc := s.pc + BitVec.ofNat 16 len, mem := updW s.mem s.top v } 1 1 len := by
  refine ⟨rfl, rfl, rfl, ?_⟩
  intro i hi
  apply updW_other
  simp only [VM.top]; omega

/-- What a scalar load of the given width at `addr` yields. -/
def Spec.Loaded (m : Nat → Word) (addr : Word) (v : Word) : Width → Prop
  | .word => v = m (addr.toNat / 2)
  | .sbyte => v.toInt = (byte m addr.toNat).toInt
  | .ubyte => v.toNat = (byte m addr.toNat).toNat
  | .block => False

theorem loaded_sbyte (m : Nat → Word) (a : Word) :
    Loaded m a (signExtend8 (byteAt m a.toNat)) .sbyte := by
  show (signExtend8 _).toInt = _
  rw [byteAt_eq, signExtend8, BitVec.toInt_signExtend_of_le (by decide)]

theorem loaded_ubyte (m : Nat → Word) (a : Word) :
    Loaded m a ((byteAt m a.toNat).zeroExtend 16) .ubyte := by
  show (BitVec.zeroExtend _ _).toNat = _
  rw [byteAt_eq]
  simp only [BitVec.toNat_setWidth]
  have := (byte m a.toNat).isLt
  omega

/-- **C05** (word and byte loads): the value at the address is pushed (or replaces the
index), and nothing else changes. -/
theorem C05_load (lib : Lib) (code : List Byte) (maxpc : Word) (s : VM) (op : Op)
    (a : Byte) (w addr : Word) (n : Nat) (wd : Width) (hi : Insn code maxpc s op a w)
    (hm : LoadAddr s a w (opnd s 0) op wd n addr) (hwd : wd ≠ .block)
    (hr : Room s 1) (hr' : s.sp.toNat / 2 + 1 < s.words ∧ s.sp.toNat + 3 < 65536)
    (ha : addr.toNat / 2 < s.words) :
    ∃ s', execute lib code maxpc s = .ok (eNOERROR, s') ∧
      Loads s s' n 1 (insnSize op.toByte) ∧ Loaded s.mem addr (opnd s' 0) wd := by
  obtain ⟨hr1, hr2⟩ := hr
  obtain ⟨hr3, hr4⟩ := hr'
  change s.top + 1 < s.words at hr3
  have hlt : s.top + 1 < 32768 := by simp only [VM.top]; omega
  have ht : (s.sp + 2#16).toNat / 2 = s.top + 1 := VM.add2_div _ hlt
  have ha' : addr.toNat < 2 * s.words := by omega
  have hv : ∀ x : Word, updW s.mem (s.top + 1) x ((s.sp + 2#16).toNat / 2 - 0) = x := by
    intro x; rw [Nat.sub_zero, ht]; simp
  have hv' : ∀ x : Word, updW s.mem s.top x (s.sp.toNat / 2 - 0) = x := by
    intro x; exact updW_same _ _ _
  cases hm with
  | ldm | ldim | ldxm | ldsm | ldsxm => exact absurd rfl hwd
  | ld =>
    rw [insn_24 hi (by decide) (by decide), pexec24, VM.getStack, VM.rd_eq _ (by exact ha)]
    simp only [Res.ok_bind]; rw [VM.push_eq s _ hr3 hlt]
    exact ⟨_, rfl, loads_push hlt, hv _⟩
  | ldb =>
    rw [insn_24 hi (by decide) (by decide), pexec24, VM.rdB, if_pos (by exact ha')]
    simp only [Res.ok_bind]; rw [VM.push_eq s _ hr3 hlt]
    refine ⟨_, rfl, loads_push hlt, ?_⟩
    show Loaded s.mem _ (updW _ _ _ _) _
    rw [hv]; exact loaded_sbyte _ _
  | uldb =>
    rw [insn_24 hi (by decide) (by decide), pexec24, VM.rdB, if_pos (by exact ha')]
    simp only [Res.ok_bind]; rw [VM.push_eq s _ hr3 hlt]
    refine ⟨_, rfl, loads_push hlt, ?_⟩
    show Loaded s.mem _ (updW _ _ _ _) _
    rw [hv]; exact loaded_ubyte _ _
  | ldi =>
    rw [insn_8 hi (by decide) (by decide), pexec8, VM.tos_eq s (k := 0) hr2 (by omega)]
    simp only [Res.ok_bind, VM.getStack]; rw [VM.rd_eq _ (by exact ha)]
    simp only [Res.ok_bind]; rw [VM.setTos_eq s (k := 0) _ hr2 (by omega)]
    exact ⟨_, rfl, loads_set, hv' _⟩
  | ldib =>
    rw [insn_8 hi (by decide) (by decide), pexec8, VM.tos_eq s (k := 0) hr2 (by omega)]
    simp only [Res.ok_bind, VM.rdB]; rw [if_pos (by exact ha')]
    simp only [Res.ok_bind]; rw [VM.setTos_eq s (k := 0) _ hr2 (by omega)]
    refine ⟨_, rfl, loads_set, ?_⟩
    show Loaded s.mem _ (updW _ s.top _ _) _
    rw [hv']; exact loaded_sbyte _ _
  | uldib =>
    rw [insn_8 hi (by decide) (by decide), pexec8, VM.tos_eq s (k := 0) hr2 (by omega)]
    simp only [Res.ok_bind, VM.rdB]; rw [if_pos (by exact ha')]
    simp only [Res.ok_bind]; rw [VM.setTos_eq s (k := 0) _ hr2 (by omega)]
    refine ⟨_, rfl, loads_set, ?_⟩
    show Loaded s.mem _ (updW _ s.top _ _) _
    rw [hv']; exact loaded_ubyte _ _
  | ldx =>
    rw [insn_24 hi (by decide) (by decide), pexec24, VM.tos_eq s (k := 0) hr2 (by omega)]
    simp only [Res.ok_bind, VM.getStack]; rw [VM.rd_eq _ (by exact ha)]
    simp only [Res.ok_bind]; rw [VM.setTos_eq s (k := 0) _ hr2 (by omega)]
    exact ⟨_, rfl, loads_set, hv' _⟩
  | ldxb =>
    rw [insn_24 hi (by decide) (by decide), pexec24, VM.tos_eq s (k := 0) hr2 (by omega)]
    simp only [Res.ok_bind, VM.rdB]; rw [if_pos (by exact ha')]
    simp only [Res.ok_bind]; rw [VM.setTos_eq s (k := 0) _ hr2 (by omega)]
    refine ⟨_, rfl, loads_set, ?_⟩
    show Loaded s.mem _ (updW _ s.top _ _) _
    rw [hv']; exact loaded_sbyte _ _
  | uldxb =>
    rw [insn_24 hi (by decide) (by decide), pexec24, VM.tos_eq s (k := 0) hr2 (by omega)]
    simp only [Res.ok_bind, VM.rdB]; rw [if_pos (by exact ha')]
    simp only [Res.ok_bind]; rw [VM.setTos_eq s (k := 0) _ hr2 (by omega)]
    refine ⟨_, rfl, loads_set, ?_⟩
    show Loaded s.mem _ (updW _ s.top _ _) _
    rw [hv']; exact loaded_ubyte _ _
  | lds h =>
    rw [insn_32 hi (by decide) (by decide), pexec32]
    simp only [signExtend16]; rw [getBase_of h]
    simp only [Res.ok_bind, VM.getStack]; rw [VM.rd_eq _ (by exact ha)]
    simp only [Res.ok_bind]; rw [VM.push_eq s _ hr3 hlt]
    exact ⟨_, rfl, loads_push hlt, hv _⟩
  | ldsb h =>
    rw [insn_32 hi (by decide) (by decide), pexec32]
    simp only [signExtend16]; rw [getBase_of h]
    simp only [Res.ok_bind, VM.rdB]; rw [if_pos (by exact ha')]
    simp only [Res.ok_bind]; rw [VM.push_eq s _ hr3 hlt]
    refine ⟨_, rfl, loads_push hlt, ?_⟩
    show Loaded s.mem _ (updW _ _ _ _) _
    rw [hv]; exact loaded_sbyte _ _
  | uldsb h =>
    rw [insn_32 hi (by decide) (by decide), pexec32]
    simp only [signExtend16]; rw [getBase_of h]
    simp only [Res.ok_bind, VM.rdB]; rw [if_pos (by exact ha')]
    simp only [Res.ok_bind]; rw [VM.push_eq s _ hr3 hlt]
    refine ⟨_, rfl, loads_push hlt, ?_⟩
    show Loaded s.mem _ (updW _ _ _ _) _
    rw [hv]; exact loaded_ubyte _ _
  | ldsx h =>
    rw [insn_32 hi (by decide) (by decide), pexec32, VM.tos_eq s (k := 0) hr2 (by omega)]
    simp only [Res.ok_bind, signExtend16, Nat.sub_zero]; rw [getBase_of (by exact h)]
    simp only [Res.ok_bind, VM.getStack]; rw [VM.rd_eq _ (by exact ha)]
    simp only [Res.ok_bind]; rw [VM.setTos_eq s (k := 0) _ hr2 (by omega)]
    exact ⟨_, rfl, loads_set, hv' _⟩
  | ldsxb h =>
    rw [insn_32 hi (by decide) (by decide), pexec32, VM.tos_eq s (k := 0) hr2 (by omega)]
    simp only [Res.ok_bind, signExtend16, Nat.sub_zero]; rw [getBase_of (by exact h)]
    simp only [Res.ok_bind, VM.rdB]; rw [if_pos (by exact ha')]
    simp only [Res.ok_bind]; rw [VM.setTos_eq s (k := 0) _ hr2 (by omega)]
    refine ⟨_, rfl, loads_set, ?_⟩
    show Loaded s.mem _ (updW _ s.top _ _) _
    rw [hv']; exact loaded_sbyte _ _
  | uldsxb h =>
    rw [insn_32 hi (by decide) (by decide), pexec32, VM.tos_eq s (k := 0) hr2 (by omega)]
    simp only [Res.ok_bind, signExtend16, Nat.sub_zero]; rw [getBase_of (by exact h)]
    simp only [Res.ok_bind, VM.rdB]; rw [if_pos (by exact ha')]
    simp only [Res.ok_bind]; rw [VM.setTos_eq s (k := 0) _ hr2 (by omega)]
    refine ⟨_, rfl, loads_set, ?_⟩
    show Loaded s.mem _ (updW _ s.top _ _) _
    rw [hv']; exact loaded_ubyte _ _

theorem byte_storeMem (m : Nat → Word) (top base n b : Nat) (hn : wordsFor n ≤ top + 1) :
    byte (storeMem m top base n) b =
      if 2 * base ≤ b ∧ b < 2 * base + n
      then byte m (2 * (top + 1 - wordsFor n) + (b - 2 * base)) else byte m b := by
  have hw : 2 * wordsFor n = n + n % 2 := by simp only [wordsFor]; omega
  by_cases h : base ≤ b / 2 ∧ b / 2 < base + n / 2
  · rw [if_pos (by omega)]
    unfold byte storeMem
    rw [if_pos h]
    have e1 : (2 * (top + 1 - wordsFor n) + (b - 2 * base)) / 2 =
      top + 1 - wordsFor n + (b / 2 - base) := by omega
    have e2 : (2 * (top + 1 - wordsFor n) + (b - 2 * base)) % 2 = b % 2 := by omega
    rw [e1, e2]
  · by_cases h2 : n % 2 = 1 ∧ b / 2 = base + n / 2
    · have e : byte (storeMem m top base n) b =
          byte (updB m (2 * (b / 2)) ((m top).truncate 8)) b := by
        unfold byte storeMem
        rw [if_neg h, if_pos h2]
      rw [e, byte_updB]
      by_cases h3 : b = 2 * (b / 2)
      · rw [if_pos h3, if_pos (by omega), ← byteAt_eq]
        have e1 : 2 * (top + 1 - wordsFor n) + (b - 2 * base) = 2 * top := by omega
        have e2 : 2 * top / 2 = top := by omega
        have e3 : 2 * top % 2 = 0 := by omega
        rw [e1, byteAt, e2, e3, if_pos rfl]
      · rw [if_neg h3, if_neg (by omega)]
    · have e : byte (storeMem m top base n) b = byte m b := by
        unfold byte storeMem
        rw [if_neg h, if_neg h2]
      rw [e, if_neg (by omega)]

/-- **C05** (block stores): the `z` data bytes go to the destination (even address, not
overlapping the data on the stack), every other byte is unchanged.  Partial: destinations
with an odd address are excluded, see `C05_violation_odd_block`. -/
theorem C05_store_block_partial (lib : Lib) (code : List Byte) (maxpc : Word) (s : VM) (op : Op)
    (a : Byte) (w addr : Word) (n z : Nat) (hi : Insn code maxpc s op a w)
    (hz : z = (opnd s 0).toNat)
    (hm : StoreAddr s a w (opnd s (1 + wordsFor z)) op .block n addr)
    (hr : Room s (n + wordsFor z + 2))
    (heven : addr.toNat % 2 = 0)
    (ha : addr.toNat / 2 + wordsFor z ≤ s.words) (ha2 : addr.toNat + z ≤ 65536)
    (hd : addr.toNat / 2 + wordsFor z + wordsFor z ≤ s.sp.toNat / 2 ∨
          s.sp.toNat / 2 ≤ addr.toNat / 2) :
    ∃ s', execute lib code maxpc s = .ok (eNOERROR, s') ∧
      Stores s s' (n + wordsFor z + 1) (insnSize op.toByte) ∧
      ∀ b, byte s'.mem b =
        if addr.toNat ≤ b ∧ b < addr.toNat + z
        then byte s.mem (2 * (s.sp.toNat / 2 - wordsFor z) + (b - addr.toNat))
        else byte s.mem b := by
  obtain ⟨hr1, hr2⟩ := hr
  have hlt := s.top_lt
  change s.top < s.words at hr2
  change n + wordsFor z + 2 ≤ s.top + 1 at hr1
  change _ ≤ s.top ∨ s.top ≤ _ at hd
  have ht : ({ s with sp := s.sp - 2#16 } : VM).top = s.top - 1 :=
    VM.sub2_div _ (by show 1 ≤ s.top; omega)
  have hz' : (s.mem s.top).toNat = z := hz.symm
  have hrb : roundBtoI z = wordsFor z := rfl
  have hsb : storeBlock { s with sp := s.sp - 2#16 } addr z =
      .ok { s with
        sp := s.sp - 2#16,
        mem := storeMem s.mem (s.top - 1) (addr.toNat / 2) z } := by
    rw [storeBlock_eq z _ addr heven (by rw [ht]; omega) (by rw [ht]; omega)
      (by rw [ht]; show s.top - 1 < s.words; omega) (by exact ha) ha2, ht]
  have hbytes : ∀ b, byte (storeMem s.mem (s.top - 1) (addr.toNat / 2) z) b =
        if addr.toNat ≤ b ∧ b < addr.toNat + z
        then byte s.mem (2 * (s.sp.toNat / 2 - wordsFor z) + (b - addr.toNat))
        else byte s.mem b := by
    intro b
    rw [byte_storeMem _ _ _ _ _ (by omega)]
    have e1 : 2 * (addr.toNat / 2) = addr.toNat := by omega
    have e2 : s.top - 1 + 1 - wordsFor z = s.top - wordsFor z := by omega
    rw [e1, e2]; rfl
  have hsp : ∀ k, k + 1 ≤ s.top → k + 1 ≤ 32767 →
      (s.sp - 2#16 - BitVec.ofNat 16 (2 * k)).toNat + 2 * (k + 1) = s.sp.toNat := by
    intro k hk hk2
    simp only [VM.top] at hk
    have := s.sp.isLt
    have e : (BitVec.ofNat 16 (2 * k)).toNat = 2 * k := by
      rw [BitVec.toNat_ofNat]; omega
    bv_omega
  have htos : ({ s with sp := s.sp - 2#16 } : VM).tos (wordsFor z) =
      .ok (s.mem (s.top - 1 - wordsFor z)) ∨ n = 0 := by
    by_cases hn : n = 0
    · right; exact hn
    · left
      rw [VM.tos_eq _ (by rw [ht]; show s.top - 1 < s.words; omega) (by rw [ht]; omega), ht]
  have hix : s.mem (s.top - 1 - wordsFor z) = opnd s (1 + wordsFor z) := by
    show _ = s.mem (s.top - (1 + wordsFor z)); congr 1; omega
  cases hm with
  | stm =>
    rw [insn_24 hi (by decide) (by decide), pexec24, VM.pop_eq s hr2]
    simp only [Res.ok_bind, hz', hrb]
    rw [hsb]
    exact ⟨_, rfl, ⟨rfl, by
      have := hsp (wordsFor z) (by omega) (by omega)
      show (s.sp - 2#16 - BitVec.ofNat 16 (2 * wordsFor z)).toNat + _ = _; omega, rfl⟩, hbytes⟩
  | stim =>
    replace htos := htos.resolve_right (by decide)
    rw [insn_8 hi (by decide) (by decide), pexec8, VM.pop_eq s hr2]
    simp only [Res.ok_bind, hz', hrb]
    rw [htos]
    simp only [Res.ok_bind, hix]
    rw [hsb]
    exact ⟨_, rfl, ⟨rfl, by
      have := hsp (wordsFor z + 1) (by omega) (by omega)
      show (s.sp - 2#16 - BitVec.ofNat 16 (2 * (wordsFor z + 1))).toNat + _ = _; omega, rfl⟩,
      hbytes⟩
  | stxm =>
    replace htos := htos.resolve_right (by decide)
    rw [insn_24 hi (by decide) (by decide), pexec24, VM.pop_eq s hr2]
    simp only [Res.ok_bind, hz', hrb]
    rw [htos]
    simp only [Res.ok_bind, hix]
    rw [BitVec.add_comm (opnd s (1 + wordsFor z)), hsb]
    exact ⟨_, rfl, ⟨rfl, by
      have := hsp (wordsFor z + 1) (by omega) (by omega)
      show (s.sp - 2#16 - BitVec.ofNat 16 (2 * (wordsFor z + 1))).toNat + _ = _; omega, rfl⟩,
      hbytes⟩
  | stsm h =>
    rw [insn_32 hi (by decide) (by decide), pexec32, VM.pop_eq s hr2]
    simp only [Res.ok_bind, hz', hrb, signExtend16]
    rw [getBase_sp, getBase_of h]
    simp only [Res.ok_bind]
    rw [hsb]
    exact ⟨_, rfl, ⟨rfl, by
      have := hsp (wordsFor z) (by omega) (by omega)
      show (s.sp - 2#16 - BitVec.ofNat 16 (2 * wordsFor z)).toNat + _ = _; omega, rfl⟩, hbytes⟩
  | stsxm h =>
    replace htos := htos.resolve_right (by decide)
    rw [insn_32 hi (by decide) (by decide), pexec32, VM.pop_eq s hr2]
    simp only [Res.ok_bind, hz', hrb, signExtend16]
    rw [htos]
    simp only [Res.ok_bind, hix]
    rw [getBase_sp, getBase_of h]
    simp only [Res.ok_bind]
    rw [BitVec.add_comm (opnd s (1 + wordsFor z)), hsb]
    exact ⟨_, rfl, ⟨rfl, by
      have := hsp (wordsFor z + 1) (by omega) (by omega)
      show (s.sp - 2#16 - BitVec.ofNat 16 (2 * (wordsFor z + 1))).toNat + _ = _; omega, rfl⟩,
      hbytes⟩

theorem byte_pushMem (m : Nat → Word) (top base n i : Nat) (hi : i < n) :
    byte (pushMem m top base n) (2 * (top + 1) + i) = byte m (2 * base + i) := by
  have hw : 2 * wordsFor n = n + n % 2 := by simp only [wordsFor]; omega
  have e0 : (2 * (top + 1) + i) / 2 = top + 1 + i / 2 := by omega
  have e1 : (2 * (top + 1) + i) % 2 = i % 2 := by omega
  have e2 : (2 * base + i) / 2 = base + i / 2 := by omega
  have e3 : (2 * base + i) % 2 = i % 2 := by omega
  have e4 : top + 1 + i / 2 - top - 1 = i / 2 := by omega
  simp only [byte, e0, e1, e2, e3]
  unfold pushMem
  rw [if_pos (by omega), e4, blkWord]
  by_cases h : 2 * (i / 2) + 1 < n
  · rw [if_pos h]
  · rw [if_neg h]
    have : i % 2 = 0 := by omega
    have e5 : 2 * (base + i / 2) / 2 = base + i / 2 := by omega
    have e6 : 2 * (base + i / 2) % 2 = 0 := by omega
    simp only [byte, this, e5, e6]
    ext j hj
    have : j < 16 := by omega
    simp [this, hj]

/-- **C05** (block loads): the `z` bytes at the (even) source address, which must lie below
the pushed block, are pushed in order; nothing else changes.  Partial: odd addresses are
excluded. -/
theorem C05_load_block_partial (lib : Lib) (code : List Byte) (maxpc : Word) (s : VM) (op : Op)
    (a : Byte) (w addr : Word) (n z : Nat) (hi : Insn code maxpc s op a w)
    (hz : z = (opnd s 0).toNat)
    (hm : LoadAddr s a w (opnd s 1) op .block n addr) (hr : Room s (n + 2))
    (heven : addr.toNat % 2 = 0)
    (hsrc : addr.toNat / 2 + wordsFor z + n ≤ s.sp.toNat / 2)
    (hroom : s.sp.toNat / 2 + wordsFor z ≤ s.words ∧ s.sp.toNat / 2 + wordsFor z ≤ 32768) :
    ∃ s', execute lib code maxpc s = .ok (eNOERROR, s') ∧
      Loads s s' (n + 1) (wordsFor z) (insnSize op.toByte) ∧
      ∀ i, i < z →
        byte s'.mem (2 * (s.sp.toNat / 2 - n) + i) = byte s.mem (addr.toNat + i) := by
  obtain ⟨hr1, hr2⟩ := hr
  have hlt := s.top_lt
  change s.top < s.words at hr2
  change n + 2 ≤ s.top + 1 at hr1
  obtain ⟨hm1, hm2⟩ := hroom
  change s.top + _ ≤ _ at hm1
  change s.top + _ ≤ _ at hm2
  change _ ≤ s.top at hsrc
  have ht : ({ s with sp := s.sp - 2#16 } : VM).top = s.top - 1 :=
    VM.sub2_div _ (by show 1 ≤ s.top; omega)
  have ht4 : 2 ≤ s.top → ({ s with sp := s.sp - 4#16 } : VM).top = s.top - 2 := by
    intro h
    simp only [VM.top] at h ⊢
    bv_omega
  have hz' : (s.mem s.top).toNat = z := hz.symm
  have hbytes : ∀ i, i < z → byte (pushMem s.mem (s.top - n - 1) (addr.toNat / 2) z)
      (2 * (s.sp.toNat / 2 - n) + i) = byte s.mem (addr.toNat + i) := by
    intro i hi
    have e : 2 * (s.sp.toNat / 2 - n) = 2 * (s.top - n - 1 + 1) := by
      change 2 * (s.top - n) = _; omega
    have e1 : 2 * (addr.toNat / 2) = addr.toNat := by omega
    rw [e, byte_pushMem _ _ _ _ _ hi, e1]
  have hframe : ∀ i, (i + (n + 1) ≤ s.sp.toNat / 2 ∨
      s.sp.toNat / 2 + wordsFor z < i + (n + 1)) →
      pushMem s.mem (s.top - n - 1) (addr.toNat / 2) z i = s.mem i := by
    intro i hi
    change i + (n + 1) ≤ s.top ∨ s.top + _ < _ at hi
    unfold pushMem
    rw [if_neg (by omega)]
  have hofn : (BitVec.ofNat 16 (2 * wordsFor z)).toNat = 2 * wordsFor z := by
    rw [BitVec.toNat_ofNat]; omega
  have hsp1 : n = 0 → (s.sp - 2#16 + BitVec.ofNat 16 (2 * wordsFor z)).toNat + 2 * (n + 1) =
      s.sp.toNat + 2 * wordsFor z := by
    intro hn
    simp only [VM.top] at *
    have := s.sp.isLt
    bv_omega
  have hsp2 : n = 1 → (s.sp - 4#16 + BitVec.ofNat 16 (2 * wordsFor z)).toNat + 2 * (n + 1) =
      s.sp.toNat + 2 * wordsFor z := by
    intro hn
    simp only [VM.top] at *
    have := s.sp.isLt
    bv_omega
  have hpb1 : n = 0 → pushBlock { s with sp := s.sp - 2#16 } addr z = .ok { s with
        sp := s.sp - 2#16 + BitVec.ofNat 16 (2 * wordsFor z),
        mem := pushMem s.mem (s.top - n - 1) (addr.toNat / 2) z } := by
    intro hn
    rw [pushBlock_eq z _ addr heven (by rw [ht]; omega)
      (by rw [ht]; show s.top - 1 + _ < s.words; omega) (by rw [ht]; omega), ht, hn]
    rfl
  have hpb2 : n = 1 → pushBlock { s with sp := s.sp - 4#16 } addr z = .ok { s with
        sp := s.sp - 4#16 + BitVec.ofNat 16 (2 * wordsFor z),
        mem := pushMem s.mem (s.top - n - 1) (addr.toNat / 2) z } := by
    intro hn
    rw [pushBlock_eq z _ addr heven (by rw [ht4 (by omega)]; omega)
      (by rw [ht4 (by omega)]; show s.top - 2 + _ < s.words; omega)
      (by rw [ht4 (by omega)]; omega), ht4 (by omega), hn]
    rfl
  cases hm with
  | ldm =>
    rw [insn_24 hi (by decide) (by decide), pexec24, VM.pop_eq s hr2]
    simp only [Res.ok_bind, hz']
    rw [hpb1 rfl]
    exact ⟨_, rfl, ⟨rfl, hsp1 rfl, rfl, hframe⟩, hbytes⟩
  | ldim =>
    rw [insn_8 hi (by decide) (by decide), pexec8, VM.pop_eq s hr2]
    simp only [Res.ok_bind, hz']
    rw [pop2_eq s (by omega) hr2]
    simp only [Res.ok_bind]
    have := hpb2 rfl
    change pushBlock _ (s.mem (s.top - 1)) z = _ at this
    rw [this]
    exact ⟨_, rfl, ⟨rfl, hsp2 rfl, rfl, hframe⟩, hbytes⟩
  | ldxm =>
    rw [insn_24 hi (by decide) (by decide), pexec24, VM.pop_eq s hr2]
    simp only [Res.ok_bind, hz']
    rw [pop2_eq s (by omega) hr2]
    simp only [Res.ok_bind]
    have := hpb2 rfl
    change pushBlock _ (s.spb + w + s.mem (s.top - 1)) z = _ at this
    rw [BitVec.add_comm (s.mem (s.top - 1)), this]
    exact ⟨_, rfl, ⟨rfl, hsp2 rfl, rfl, hframe⟩, hbytes⟩
  | ldsm h =>
    rw [insn_32 hi (by decide) (by decide), pexec32, VM.pop_eq s hr2]
    simp only [Res.ok_bind, hz', signExtend16]
    rw [getBase_sp, getBase_of h]
    simp only [Res.ok_bind]
    rw [hpb1 rfl]
    exact ⟨_, rfl, ⟨rfl, hsp1 rfl, rfl, hframe⟩, hbytes⟩
  | @ldsxm base h =>
    rw [insn_32 hi (by decide) (by decide), pexec32, VM.pop_eq s hr2]
    simp only [Res.ok_bind, hz']
    rw [pop2_eq s (by omega) hr2]
    simp only [Res.ok_bind, signExtend16]
    rw [getBase_sp, getBase_of h]
    simp only [Res.ok_bind]
    have := hpb2 rfl
    change pushBlock _ (base + s.mem (s.top - 1)) z = _ at this
    rw [BitVec.add_comm (s.mem (s.top - 1)), this]
    exact ⟨_, rfl, ⟨rfl, hsp2 rfl, rfl, hframe⟩, hbytes⟩

/-- Read back of what `m` holds after a store, as seen by a load of the given width. -/
def Spec.StoredAs (v : Word) (r : Word) : Width → Prop
  | .word => r = v
  | .sbyte => r.toInt = ((v.truncate 8 : Byte)).toInt
  | .ubyte => r.toNat = v.toNat % 256
  | .block => False

/-- **C05** (round trip): whatever instruction stores a scalar `v` at an address and whatever
instruction of the same kind then loads from that address, the value on top of the stack
is `v` (respectively its low byte, sign or zero extended).  Partial: the statement is about
equal addresses; `C05_violation_indexed` shows that LDSX and STSX compute different addresses
from the same operands when offset and index have different signs. -/
theorem C05_roundtrip_partial (lib : Lib) (code : List Byte) (maxpc : Word) (s : VM)
    (ops opl : Op) (a a2 : Byte) (w w2 addr : Word) (n n2 : Nat) (wds wdl : Width)
    (hk : (wds = .word ∧ wdl = .word) ∨ (wds = .sbyte ∧ (wdl = .sbyte ∨ wdl = .ubyte)))
    (hi : Insn code maxpc s ops a w)
    (hm : StoreAddr s a w (opnd s 1) ops wds n addr) (hr : Room s (n + 2))
    (ha : addr.toNat / 2 < s.words) :
    ∃ s1, execute lib code maxpc s = .ok (eNOERROR, s1) ∧
      (∀ s2, s2.mem = s1.mem → s2.words = s1.words →
        Insn code maxpc s2 opl a2 w2 → LoadAddr s2 a2 w2 (opnd s2 0) opl wdl n2 addr →
        Room s2 1 → s2.sp.toNat / 2 + 1 < s2.words ∧ s2.sp.toNat + 3 < 65536 →
        ∃ s3, execute lib code maxpc s2 = .ok (eNOERROR, s3) ∧
          StoredAs (opnd s 0) (opnd s3 0) wdl) := by
  have hnb : wdl ≠ .block := by
    rcases hk with ⟨_, rfl⟩ | ⟨_, rfl | rfl⟩ <;> intro h <;> cases h
  rcases hk with ⟨rfl, rfl⟩ | ⟨rfl, hl⟩
  · obtain ⟨s1, he, hst, hmem⟩ := C05_store_word lib code maxpc s ops a w addr n hi hm hr ha
    refine ⟨s1, he, ?_⟩
    intro s2 hm2 hw2 hi2 hl2 hr2 hr2'
    have hwords : s1.words = s.words := by rw [hst.regs]
    obtain ⟨s3, he3, _, hld⟩ := C05_load lib code maxpc s2 opl a2 w2 addr n2 .word hi2 hl2 hnb hr2
      hr2' (by rw [hw2, hwords]; exact ha)
    refine ⟨s3, he3, ?_⟩
    show opnd s3 0 = opnd s 0
    have : opnd s3 0 = s2.mem (addr.toNat / 2) := hld
    rw [this, hm2, hmem, if_pos rfl]
  · obtain ⟨s1, he, hst, hmem⟩ := C05_store_byte lib code maxpc s ops a w addr n hi hm hr ha
    refine ⟨s1, he, ?_⟩
    intro s2 hm2 hw2 hi2 hl2 hr2 hr2'
    have hwords : s1.words = s.words := by rw [hst.regs]
    obtain ⟨s3, he3, _, hld⟩ := C05_load lib code maxpc s2 opl a2 w2 addr n2 wdl hi2 hl2 hnb hr2
      hr2' (by rw [hw2, hwords]; exact ha)
    refine ⟨s3, he3, ?_⟩
    have hb : byte s2.mem addr.toNat = (opnd s 0).truncate 8 := by
      rw [hm2, hmem, if_pos rfl]
    rcases hl with rfl | rfl
    · have h : (opnd s3 0).toInt = (byte s2.mem addr.toNat).toInt := hld
      rw [hb] at h; exact h
    · have h : (opnd s3 0).toNat = (byte s2.mem addr.toNat).toNat := hld
      rw [hb] at h
      show (opnd s3 0).toNat = (opnd s 0).toNat % 256
      rw [h]; simp [BitVec.toNat_setWidth]

/-- Non-vacuity: ST and LD of the global variable at offset 6, addresses inside the memory. -/
example : Insn [Op.st.toByte, 0, 6, Op.ld.toByte, 0, 6] 6#16 (sampleVM 0) .st 0 6#16 ∧
    StoreAddr (sampleVM 0) 0 6#16 (opnd (sampleVM 0) 1) .st .word 0 16#16 ∧
    Room (sampleVM 0) 2 ∧ (16#16 : Word).toNat / 2 < (sampleVM 0).words ∧
    Insn [Op.st.toByte, 0, 6, Op.ld.toByte, 0, 6] 6#16 (sampleVM 3) .ld 0 6#16 ∧
    LoadAddr (sampleVM 3) 0 6#16 (opnd (sampleVM 3) 0) .ld .word 0 16#16 :=
  ⟨⟨⟨by decide, rfl⟩, by decide, fun _ => ⟨0, 6, rfl, rfl, by decide⟩⟩, .st,
   ⟨by decide, by decide⟩, by decide,
   ⟨⟨by decide, rfl⟩, by decide, fun _ => ⟨0, 6, rfl, rfl, by decide⟩⟩, .ld⟩

/-- Non-vacuity for a level-relative byte store one static level out. -/
example : FrameAddr { sampleVM 0 with fp := 20#16 } 1 (-2) 368#16 :=
  ⟨370#16, .out (by decide) (.here _), by decide⟩

/-- A stack holding a destination address `d`, two data bytes and the size 2. -/
def Spec.blockSample (d : Word) : VM :=
  sampleMem (fun i => if i = 20 then 2#16 else if i = 19 then 0xbbaa#16 else
    if i = 18 then d else 0#16)

example : Insn [Op.stim.toByte] 1#16 (blockSample 6#16) .stim 0 0 ∧
    StoreAddr (blockSample 6#16) 0 0 (opnd (blockSample 6#16) (1 + wordsFor 2)) .stim .block 1 6#16 ∧
    Room (blockSample 6#16) (1 + wordsFor 2 + 2) :=
  ⟨⟨⟨by decide, rfl⟩, by decide, fun h => absurd h (by decide)⟩, .stim, ⟨by decide, by decide⟩⟩

/-- **C05 fails for blocks at odd addresses**: storing two bytes at address 5 changes byte 4,
which is outside the destination, and leaves byte 6 alone. -/
theorem C05_violation_odd_block (lib : Lib) :
    ∃ s', execute lib [Op.stim.toByte] 1#16 (blockSample 5#16) = .ok (eNOERROR, s') ∧
      byte (blockSample 5#16).mem 4 = 0 ∧ byte s'.mem 4 = 0xaa ∧ byte s'.mem 5 = 0xbb ∧
      byte s'.mem 6 = 0 :=
  ⟨_, rfl, by decide, by decide, by decide, by decide⟩

/-- **C05 fails for indexed parameters**: with frame-relative offset -2 and index 4, STSX
stores 99 and LDSX with the same operands then loads something else (the word holding 7). -/
theorem C05_violation_indexed (lib : Lib) :
    let code : List Byte := [Op.stsx.toByte, 0, 0xff, 0xfe, Op.push.toByte, 0, 4,
      Op.ldsx.toByte, 0, 0xff, 0xfe]
    let s : VM := sampleMem (fun i => if i = 20 then 99#16 else if i = 19 then 4#16 else 7#16)
    ∃ s', runFor lib code 11#16 3 s = .ok (eNOERROR, s') ∧ opnd s' 0 = 7#16 :=
  ⟨_, rfl, by decide⟩

end Pas
