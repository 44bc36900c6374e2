import Verif.Props.Strings2

/-! Properties C22-C27: concrete cases meeting the hypotheses of the string theorems, and inputs
for which the library does not do what the properties ask for. -/
namespace Pas
open Spec Heap

/-- A machine whose memory contains the string variable at byte 120 (word 60) with the value
'abc' in a buffer of 10 bytes at 160, the characters 'xy' at 180, and further words given by a
table.  The stack top is word 20. -/
def strVM (ws : List (Nat × Word)) : VM :=
  { sampleMem (fun i => ((ws ++ [(60, 3#16), (61, 160#16), (62, 10#16), (80, 0x6261#16),
      (81, 0x63#16), (90, 0x7978#16)]).lookup i).getD 0#16) with
    csp := 140#16
    spb := 160#16 }

/-- A program consisting of one call of a string library function. -/
def strCode (sub : Byte) : List Byte := [Op.strlib.toByte, 0#8, sub]

theorem strCode_insn (ws : List (Nat × Word)) (sub : Byte) (w : Word) (h : w.toNat = sub.toNat) :
    Insn (strCode sub) 3#16 (strVM ws) .strlib 0 w :=
  ⟨⟨by show 0 < 3; omega, rfl⟩, fun h => absurd h (by decide),
    fun _ => ⟨0#8, sub, rfl, rfl, by rw [h]; simp⟩⟩

theorem strVM_var (ws : List (Nat × Word)) (h1 : ws.lookup 61 = none)
    (h2 : ws.lookup 62 = none) : StrVar (strVM ws) 120 := by
  have e1 : (strVM ws).mem 61 = 160#16 := by
    show ((List.lookup 61 (ws ++ _)).getD 0#16) = _
    rw [List.lookup_append, h1]; rfl
  have e2 : (strVM ws).mem 62 = 10#16 := by
    show ((List.lookup 62 (ws ++ _)).getD 0#16) = _
    rw [List.lookup_append, h2]; rfl
  have b1 : strBuf (strVM ws).mem 120 = 160 := congrArg BitVec.toNat e1
  have b2 : strCap (strVM ws).mem 120 = 10 := congrArg (fun w : Word => w.toNat % 4096) e2
  exact ⟨rfl, by show 126 ≤ 200; omega, by rw [b1, b2]; show 170 ≤ 200; omega, by rw [b1, b2]; unfold Apart; omega⟩

instance (a n b k : Nat) : Decidable (Apart a n b k) := by unfold Apart; infer_instance
instance (s : VM) (n : Nat) : Decidable (Room s n) := by unfold Room; infer_instance
instance (w : Word) : Decidable (Temp w) := by unfold Temp; infer_instance

def okCode : Res (Nat × VM) → Option Nat
  | .ok (n, _) => some n
  | _ => none

def endVM : Res (Nat × VM) → VM
  | .ok (_, s) => s
  | _ => sampleMem fun _ => 0#16

theorem okCode_run {r : Res (Nat × VM)} {n : Nat} (h : okCode r = some n) : r = .ok (n, endVM r) := by
  cases r with
  | ok x =>
    obtain ⟨k, s⟩ := x
    simp only [okCode, Option.some.injEq] at h
    subst h; rfl
  | _ => cases h

theorem pos_run {lib : Lib} {cfg : Str.Cfg} (hlib : lib.strOps = Str.strOps cfg)
    {code : List Byte} {maxpc : Word} {s : VM} (hi : Insn code maxpc s .strlib 0 0x10#16)
    (h : okCode (Str.findSubStr s) = some 0) :
    execute lib code maxpc s = .ok (eNOERROR, { endVM (Str.findSubStr s) with
      pc := (endVM (Str.findSubStr s)).pc + 3#16 }) := by
  rw [strlib_exec hlib hi, show Str.strOps cfg s 0x10#16 = Str.findSubStr s from rfl,
    okCode_run h]; rfl

/-- C22: the hypotheses of the assignment theorems are met by `s := 'xy'`. -/
example :
    let s := strVM [(20, 120#16), (19, 2#16), (18, 180#16), (17, 2#16)]
    CopyCall s 0#16 120#16 180#16 2#16 2#16 4 ∧ Room s 4 ∧ Insn (strCode 0) 3#16 s .strlib 0 0#16 ∧
      StrVar s (120#16).toNat ∧ ¬Temp 2#16 ∧ (180#16).toNat ≠ strBuf s.mem 120 ∧
      Apart (strBuf s.mem 120) (strCap s.mem 120) 180 2 :=
  ⟨.plain, by decide, strCode_insn _ _ _ rfl, strVM_var _ rfl rfl, by decide, by decide,
    by decide⟩

/-- C22: the hypotheses of `C22_self` are met by `s := s`. -/
example :
    let s := strVM [(20, 120#16), (19, 10#16), (18, 160#16), (17, 3#16)]
    CopyCall s 0#16 120#16 160#16 3#16 10#16 4 ∧ (160#16).toNat = strBuf s.mem 120 :=
  ⟨.plain, by decide⟩

/-- C23: appending 'xy' to a temporary with the value 'abc'. -/
example :
    let s := strVM [(20, 2#16), (19, 180#16), (18, 2#16), (17, 0x800a#16), (16, 160#16), (15, 3#16)]
    Room s 6 ∧ Insn (strCode 0xb) 3#16 s .strlib 0 0xb#16 ∧ ¬Temp (opnd s 0) ∧
    (opnd s 5).toNat + (opnd s 2).toNat ≤ (opnd s 3).toNat % 4096 ∧
    Apart ((opnd s 4).toNat + (opnd s 5).toNat) (opnd s 2).toNat
      (opnd s 1).toNat (opnd s 2).toNat ∧
    Apart (opnd s 4).toNat ((opnd s 3).toNat % 4096) (2 * (s.sp.toNat / 2 - 5)) 6 :=
  ⟨by decide, strCode_insn _ _ _ rfl, by decide, by decide, by decide, by decide⟩

/-- C23 (single characters). -/
example :
    let s := strVM [(20, 0x7a#16), (19, 0x800a#16), (18, 160#16), (17, 3#16)]
    Room s 4 ∧ Insn (strCode 0xc) 3#16 s .strlib 0 0xc#16 ∧
    (opnd s 3).toNat + 1 ≤ (opnd s 1).toNat % 4096 ∧
    Apart (opnd s 2).toNat ((opnd s 1).toNat % 4096) (2 * (s.sp.toNat / 2 - 3)) 6 :=
  ⟨by decide, strCode_insn _ _ _ rfl, by decide, by decide⟩

/-- **C23 is violated** when the result does not fit: nothing is appended, although one more
character would fit, and no error is reported. -/
theorem C23_violation (lib : Lib) (cfg : Str.Cfg) (hlib : lib.strOps = Str.strOps cfg) :
    ∃ code maxpc s s', Insn code maxpc s .strlib 0 0xb#16 ∧ Room s 6 ∧
      text s.mem (opnd s 4).toNat (opnd s 5).toNat = [0x61#8, 0x62#8, 0x63#8] ∧
      text s.mem (opnd s 1).toNat (opnd s 2).toNat = [0x78#8, 0x79#8] ∧
      (opnd s 3).toNat % 4096 = 4 ∧
      execute lib code maxpc s = .ok (eNOERROR, s') ∧
      text s'.mem (opnd s' 1).toNat (opnd s' 2).toNat = [0x61#8, 0x62#8, 0x63#8] := by
  have hi := strCode_insn [(20, 2#16), (19, 180#16), (18, 2#16), (17, 0x8004#16), (16, 160#16),
    (15, 3#16)] 0xb 0xb#16 rfl
  exact ⟨_, _, _, _, hi, by decide, by decide, by decide, by decide,
    (strlib_exec hlib hi).trans rfl, by decide⟩

/-- C24: comparing 'abc' with 'xy'. -/
example :
    let s := strVM [(20, 2#16), (19, 180#16), (18, 2#16), (17, 10#16), (16, 160#16), (15, 3#16)]
    Room s 6 ∧ Insn (strCode 0xd) 3#16 s .strlib 0 0xd#16 ∧ ¬Temp (opnd s 3) ∧ ¬Temp (opnd s 0) ∧
    (opnd s 4).toNat + (opnd s 5).toNat ≤ 2 * s.words ∧
    (opnd s 1).toNat + (opnd s 2).toNat ≤ 2 * s.words :=
  ⟨by decide, strCode_insn _ _ _ rfl, by decide, by decide, by decide, by decide⟩

/-- A `memcmp` whose results for different strings are `k` and `-k`. -/
def cmpBy (k : Int) : List Byte → List Byte → Int
  | a :: s, b :: t => if a.toNat < b.toNat then -k else if b.toNat < a.toNat then k else cmpBy k s t
  | _, _ => 0

theorem cmpBy_spec {k : Int} (hk : 0 < k) : ∀ a b : List Byte, a.length = b.length →
    (cmpBy k a b < 0 ↔ Before a b) ∧ (0 < cmpBy k a b ↔ Before b a)
  | [], [], _ => by
    constructor <;> constructor <;> intro h <;> cases h
  | a :: s, b :: t, h => by
    have ih := cmpBy_spec hk s t (by simpa using h)
    unfold cmpBy
    by_cases h1 : a.toNat < b.toNat
    · rw [if_pos h1]
      refine ⟨⟨fun _ => .head _ _ _ _ h1, fun _ => by omega⟩, ⟨fun h => by omega, fun h => ?_⟩⟩
      cases h <;> omega
    · rw [if_neg h1]
      by_cases h2 : b.toNat < a.toNat
      · rw [if_pos h2]
        refine ⟨⟨fun h => by omega, fun h => ?_⟩, ⟨fun _ => .head _ _ _ _ h2, fun _ => by omega⟩⟩
        cases h <;> omega
      · rw [if_neg h2]
        have : a = b := BitVec.eq_of_toNat_eq (by omega)
        subst this
        refine ⟨ih.1.trans ⟨.tail _ _ _, fun h => ?_⟩, ih.2.trans ⟨.tail _ _ _, fun h => ?_⟩⟩
        · cases h
          · omega
          · assumption
        · cases h
          · omega
          · assumption

theorem cmpBy_range (k : Int) (hk : 0 < k) : ∀ a b : List Byte, -k ≤ cmpBy k a b ∧ cmpBy k a b ≤ k
  | a :: s, b :: t => by
    have ih := cmpBy_range k hk s t
    unfold cmpBy
    split
    · omega
    · split <;> omega
  | [], _ => by simp only [cmpBy]; omega
  | _ :: _, [] => by simp only [cmpBy]; omega

/-- A C library as `C24_compare_partial` requires exists. -/
example : GoodMemcmp (cmpBy 1) :=
  ⟨fun a b h => (cmpBy_spec (by decide) a b h).1, fun a b h => (cmpBy_spec (by decide) a b h).2,
    fun a b => by have := cmpBy_range 1 (by decide) a b; omega⟩

/-- **C24 is violated** with a C library whose `memcmp` returns large values, which the C standard
permits: the result is cut to 16 bits, and different strings compare equal. -/
theorem C24_violation_memcmp :
    ∃ f, StdMemcmp f ∧ ∀ (lib : Lib) (cfg : Str.Cfg), lib.strOps = Str.strOps cfg →
      cfg.memcmp = f → ∃ code maxpc s s', Insn code maxpc s .strlib 0 0xd#16 ∧ Room s 6 ∧
        text s.mem (opnd s 4).toNat (opnd s 5).toNat = [0x61#8, 0x62#8] ∧
        text s.mem (opnd s 1).toNat (opnd s 2).toNat = [0x78#8, 0x79#8] ∧
        execute lib code maxpc s = .ok (eNOERROR, s') ∧ (opnd s' 0).toInt = 0 := by
  refine ⟨cmpBy 65536, ⟨fun a b h => (cmpBy_spec (by decide) a b h).1,
    fun a b h => (cmpBy_spec (by decide) a b h).2⟩, ?_⟩
  rintro lib ⟨n, f, o⟩ hlib rfl
  have hi := strCode_insn [(20, 2#16), (19, 180#16), (18, 2#16), (17, 10#16), (16, 160#16),
    (15, 2#16)] 0xd 0xd#16 rfl
  obtain ⟨s', h⟩ : ∃ s' : VM, execute lib (strCode 0xd) 3#16 _ = .ok (eNOERROR, s') ∧
      s'.sp = 30#16 ∧ s'.mem 15 = 0#16 := ⟨_, (strlib_exec hlib hi).trans rfl, rfl, rfl⟩
  refine ⟨_, _, _, s', hi, by decide, by decide, by decide, h.1, ?_⟩
  unfold opnd
  rw [h.2.1, show (30#16).toNat / 2 - 0 = 15 from rfl, h.2.2]; rfl

/-- C25 and C26: `Delete(s, 2, 1)`. -/
example :
    let s := strVM [(20, 1#16), (19, 2#16), (18, 120#16)]
    Room s 3 ∧ Insn (strCode 0x12) 3#16 s .strlib 0 0x12#16 ∧ StrVar s (opnd s 2).toNat ∧
    strLen s.mem 120 ≤ strCap s.mem 120 ∧ 1 ≤ (opnd s 1).toNat ∧
    (opnd s 1).toNat ≤ strLen s.mem 120 + 1 :=
  ⟨by decide, strCode_insn _ _ _ rfl, strVM_var _ rfl rfl, by decide, by decide, by decide⟩

/-- **C25 is violated** by `Delete` behind the end of the string: deleting one character at
position 10 of 'abc' makes the string longer. -/
theorem C25_violation_delete (lib : Lib) (cfg : Str.Cfg) (hlib : lib.strOps = Str.strOps cfg) :
    ∃ code maxpc s s', Insn code maxpc s .strlib 0 0x12#16 ∧ Room s 3 ∧ opnd s 2 = 120#16 ∧
      opnd s 1 = 10#16 ∧ opnd s 0 = 1#16 ∧ StrVar s 120 ∧
      strVal s.mem 120 = [0x61#8, 0x62#8, 0x63#8] ∧
      execute lib code maxpc s = .ok (eNOERROR, s') ∧ strLen s'.mem 120 = 9 := by
  have hi := strCode_insn [(20, 1#16), (19, 10#16), (18, 120#16)] 0x12 0x12#16 rfl
  exact ⟨_, _, _, _, hi, by decide, rfl, rfl, rfl, strVM_var _ rfl rfl, by decide,
    (strlib_exec hlib hi).trans rfl, by decide⟩

/-- **C25 is violated** by `Delete` at position 0: the string gets longer than its buffer. -/
theorem C25_violation_delete_zero (lib : Lib) (cfg : Str.Cfg)
    (hlib : lib.strOps = Str.strOps cfg) :
    ∃ code maxpc s s', Insn code maxpc s .strlib 0 0x12#16 ∧ Room s 3 ∧ opnd s 2 = 120#16 ∧
      opnd s 1 = 0#16 ∧ opnd s 0 = 1#16 ∧ StrVar s 120 ∧
      strVal s.mem 120 = [0x61#8, 0x62#8, 0x63#8] ∧
      execute lib code maxpc s = .ok (eNOERROR, s') ∧ strLen s'.mem 120 = 65535 := by
  have hi := strCode_insn [(20, 1#16), (19, 0#16), (18, 120#16)] 0x12 0x12#16 rfl
  exact ⟨_, _, _, _, hi, by decide, rfl, rfl, rfl, strVM_var _ rfl rfl, by decide,
    (strlib_exec hlib hi).trans rfl, by decide⟩

/-- C25 and C26: `Insert('xy', s, 2)`. -/
example :
    let s := strVM [(20, 2#16), (19, 120#16), (18, 2#16), (17, 180#16), (16, 2#16)]
    Room s 5 ∧ Insn (strCode 0x11) 3#16 s .strlib 0 0x11#16 ∧ ¬Temp (opnd s 2) ∧
    StrVar s (opnd s 1).toNat ∧ strLen s.mem 120 ≤ strCap s.mem 120 ∧
    Apart (strBuf s.mem 120) (strCap s.mem 120) (opnd s 3).toNat (opnd s 4).toNat :=
  ⟨by decide, strCode_insn _ _ _ rfl, by decide, strVM_var _ rfl rfl, by decide, by decide⟩

/-- **C25 is violated** by `Insert` behind the end of the string: `Insert('xy', s, 6)` with
`s = 'abc'` makes a string of five characters the last two of which were not in either string. -/
theorem C25_violation_insert (lib : Lib) (cfg : Str.Cfg) (hlib : lib.strOps = Str.strOps cfg) :
    ∃ code maxpc s s', Insn code maxpc s .strlib 0 0x11#16 ∧ Room s 5 ∧ opnd s 1 = 120#16 ∧
      opnd s 0 = 6#16 ∧ text s.mem (opnd s 3).toNat (opnd s 4).toNat = [0x78#8, 0x79#8] ∧
      StrVar s 120 ∧ strVal s.mem 120 = [0x61#8, 0x62#8, 0x63#8] ∧
      execute lib code maxpc s = .ok (eNOERROR, s') ∧
      strVal s'.mem 120 = [0x61#8, 0x62#8, 0x63#8, 0#8, 0#8] := by
  have hi := strCode_insn [(20, 6#16), (19, 120#16), (18, 2#16), (17, 180#16), (16, 2#16)]
    0x11 0x11#16 rfl
  exact ⟨_, _, _, _, hi, by decide, rfl, rfl, by decide, strVM_var _ rfl rfl, by decide,
    (strlib_exec hlib hi).trans rfl, by decide⟩

/-- **C25 is violated** by inserting a string into itself: `Insert(s, s, 2)` with `s = 'abc'`
should give 'aabcbc'. -/
theorem C25_violation_insert_self (lib : Lib) (cfg : Str.Cfg)
    (hlib : lib.strOps = Str.strOps cfg) :
    ∃ code maxpc s s', Insn code maxpc s .strlib 0 0x11#16 ∧ Room s 5 ∧ opnd s 1 = 120#16 ∧
      opnd s 0 = 2#16 ∧ (opnd s 3).toNat = strBuf s.mem 120 ∧ opnd s 4 = 3#16 ∧
      StrVar s 120 ∧ strVal s.mem 120 = [0x61#8, 0x62#8, 0x63#8] ∧
      execute lib code maxpc s = .ok (eNOERROR, s') ∧
      strVal s'.mem 120 = [0x61#8, 0x61#8, 0x61#8, 0x61#8, 0x62#8, 0x63#8] := by
  have hi := strCode_insn [(20, 2#16), (19, 120#16), (18, 10#16), (17, 160#16), (16, 3#16)]
    0x11 0x11#16 rfl
  exact ⟨_, _, _, _, hi, by decide, rfl, rfl, by decide, rfl, strVM_var _ rfl rfl, by decide,
    (strlib_exec hlib hi).trans rfl, by decide⟩

/-- C26: `FillChar(s, 8, 'z')`. -/
example :
    let s := strVM [(20, 0x7a#16), (19, 8#16), (18, 120#16)]
    Room s 3 ∧ Insn (strCode 0x13) 3#16 s .strlib 0 0x13#16 ∧ StrVar s (opnd s 2).toNat ∧
    strLen s.mem 120 ≤ strCap s.mem 120 :=
  ⟨by decide, strCode_insn _ _ _ rfl, strVM_var _ rfl rfl, by decide⟩

/-- C25: `CharAt('abc', 2)`. -/
example :
    let s := strVM [(20, 2#16), (19, 10#16), (18, 160#16), (17, 3#16)]
    Room s 5 ∧ Insn (strCode 0x14) 3#16 s .strlib 0 0x14#16 ∧ ¬Temp (opnd s 1) ∧
    ∀ c ∈ text s.mem (opnd s 2).toNat (opnd s 3).toNat, c.toNat < 128 :=
  ⟨by decide, strCode_insn _ _ _ rfl, by decide, by decide⟩

/-- **C25 is violated** by `CharAt` for characters with code 128 and above: the code is
sign-extended. -/
theorem C25_violation_charAt (lib : Lib) (cfg : Str.Cfg) (hlib : lib.strOps = Str.strOps cfg) :
    ∃ code maxpc s s', Insn code maxpc s .strlib 0 0x14#16 ∧ Room s 5 ∧ opnd s 0 = 1#16 ∧
      text s.mem (opnd s 2).toNat (opnd s 3).toNat = [0xe9#8] ∧
      execute lib code maxpc s = .ok (eNOERROR, s') ∧ (opnd s' 0).toNat = 0xffe9 := by
  have hi := strCode_insn [(20, 1#16), (19, 10#16), (18, 180#16), (17, 1#16), (90, 0xe9#16)]
    0x14 0x14#16 rfl
  exact ⟨_, _, _, _, hi, by decide, rfl, by decide, (strlib_exec hlib hi).trans rfl, by decide⟩

/-- C25: `Pos('bc', 'abc')`. -/
example :
    let s := strVM [(20, 1#16), (19, 10#16), (18, 160#16), (17, 3#16), (16, 10#16), (15, 161#16),
      (14, 2#16)]
    Room s 8 ∧ Insn (strCode 0x10) 3#16 s .strlib 0 0x10#16 ∧ ¬Temp (opnd s 1) ∧ ¬Temp (opnd s 4) ∧
    s.csp.toNat + 3 + 2 + 2 < s.spb.toNat ∧ Apart s.csp.toNat (3 + 2 + 2) (opnd s 2).toNat 3 ∧
    Apart s.csp.toNat (3 + 2 + 2) (opnd s 5).toNat 2 ∧
    (∀ c ∈ text s.mem 160 3, c ≠ 0#8) ∧ ∀ c ∈ text s.mem 161 2, c ≠ 0#8 :=
  ⟨by decide, strCode_insn _ _ _ rfl, by decide, by decide, by decide, by decide, by decide,
    by decide, by decide⟩

/-- **C25 is violated** by `Pos` with a starting position behind the end of the string: whatever
follows the string in memory, here the copy of the substring itself, is searched. -/
theorem C25_violation_pos (lib : Lib) (cfg : Str.Cfg) (hlib : lib.strOps = Str.strOps cfg) :
    ∃ code maxpc s s', Insn code maxpc s .strlib 0 0x10#16 ∧ Room s 8 ∧ opnd s 0 = 5#16 ∧
      text s.mem (opnd s 2).toNat (opnd s 3).toNat = [0x61#8, 0x62#8, 0x63#8] ∧
      text s.mem (opnd s 5).toNat (opnd s 6).toNat = [0x78#8, 0x79#8] ∧
      execute lib code maxpc s = .ok (eNOERROR, s') ∧ opnd s' 0 = 5#16 := by
  have hi := strCode_insn [(20, 5#16), (19, 10#16), (18, 160#16), (17, 3#16), (16, 2#16),
    (15, 180#16), (14, 2#16)] 0x10 0x10#16 rfl
  exact ⟨_, _, _, _, hi, by decide, rfl, by decide, by decide, pos_run hlib hi (by decide +kernel),
    by decide +kernel⟩

/-- **C25 is violated** by `Pos` when the substring contains the character with code 0: only the
part before it is looked for. -/
theorem C25_violation_pos_nul (lib : Lib) (cfg : Str.Cfg) (hlib : lib.strOps = Str.strOps cfg) :
    ∃ code maxpc s s', Insn code maxpc s .strlib 0 0x10#16 ∧ Room s 8 ∧ opnd s 0 = 1#16 ∧
      text s.mem (opnd s 2).toNat (opnd s 3).toNat = [0x61#8, 0x62#8, 0x63#8] ∧
      text s.mem (opnd s 5).toNat (opnd s 6).toNat = [0x62#8, 0#8, 0x64#8] ∧
      execute lib code maxpc s = .ok (eNOERROR, s') ∧ opnd s' 0 = 2#16 := by
  have hi := strCode_insn [(20, 1#16), (19, 10#16), (18, 160#16), (17, 3#16), (16, 4#16),
    (15, 180#16), (14, 3#16), (90, 0x0062#16), (91, 0x64#16)] 0x10 0x10#16 rfl
  exact ⟨_, _, _, _, hi, by decide, rfl, by decide, by decide, pos_run hlib hi (by decide +kernel),
    by decide +kernel⟩

/-- **C26 is violated** by appending a character to a full temporary string: the allocation word's
flag bit is taken for part of the size, so the character is written behind the buffer. -/
theorem C26_violation_char (lib : Lib) (cfg : Str.Cfg) (hlib : lib.strOps = Str.strOps cfg) :
    ∃ code maxpc s s', Insn code maxpc s .strlib 0 0xc#16 ∧ Room s 4 ∧ Temp (opnd s 1) ∧
      (opnd s 1).toNat % 4096 = 3 ∧ opnd s 2 = 160#16 ∧ opnd s 3 = 3#16 ∧
      execute lib code maxpc s = .ok (eNOERROR, s') ∧
      byte s.mem (160 + 3) = 0#8 ∧ byte s'.mem (160 + 3) = 0x7a#8 := by
  have hi := strCode_insn [(20, 0x7a#16), (19, 0x8003#16), (18, 160#16), (17, 3#16)] 0xc 0xc#16 rfl
  exact ⟨_, _, _, _, hi, by decide, by decide, by decide, rfl, rfl,
    (strlib_exec hlib hi).trans rfl, by decide, by decide⟩

/-- **C26 is violated** by storing a string into a shorter character array: 'abc' stored into an
array of one character at address 180 overwrites the following bytes. -/
theorem C26_violation_array (lib : Lib) (cfg : Str.Cfg) (hlib : lib.strOps = Str.strOps cfg) :
    ∃ code maxpc s s', Insn code maxpc s .strlib 0 0x5#16 ∧ Room s 5 ∧ opnd s 0 = 180#16 ∧
      opnd s 1 = 1#16 ∧ text s.mem (opnd s 3).toNat (opnd s 4).toNat = [0x61#8, 0x62#8, 0x63#8] ∧
      execute lib code maxpc s = .ok (eNOERROR, s') ∧
      byte s.mem 181 = 0x79#8 ∧ byte s'.mem 181 = 0x62#8 := by
  have hi := strCode_insn [(20, 180#16), (19, 1#16), (18, 10#16), (17, 160#16), (16, 3#16)]
    0x5 0x5#16 rfl
  exact ⟨_, _, _, _, hi, by decide, rfl, rfl, by decide, (strlib_exec hlib hi).trans rfl,
    by decide, by decide⟩

/-- C27: initialising the variable at 120 with a buffer of 7 bytes. -/
example :
    let s := strVM [(20, 120#16), (19, 7#16)]
    Room s 2 ∧ Insn (strCode 7) 3#16 s .strlib 0 7#16 ∧ (opnd s 0).toNat % 2 = 0 ∧
    (opnd s 0).toNat + 6 ≤ 2 * s.words ∧ (opnd s 1).toNat < 4094 ∧
    s.csp.toNat + (opnd s 1).toNat + 1 < s.spb.toNat :=
  ⟨by decide, strCode_insn _ _ _ rfl, by decide, by decide, by decide, by decide⟩

/-- C27: a history with one live string variable. -/
example (lib : Lib) (cfg : Str.Cfg) (hlib : lib.strOps = Str.strOps cfg) :
    ∃ s, StrHist lib (strCode 7) 3#16 [⟨140, 8⟩] s := by
  have hi := strCode_insn [(20, 120#16), (19, 7#16)] 7 7#16 rfl
  have := StrHist.init (lib := lib) .start (by decide) hi (by decide) (by decide)
    ((strlib_exec hlib hi).trans rfl)
  exact ⟨_, this⟩

/-- **C27 is violated**: constant data lies between the string storage and the stack, but only the
start of the stack is checked, so string buffers overlap the constants. -/
theorem C27_violation (lib : Lib) (cfg : Str.Cfg) (hlib : lib.strOps = Str.strOps cfg) :
    ∃ code maxpc s s', Insn code maxpc s .strlib 0 0x7#16 ∧ Room s 2 ∧ opnd s 0 = 120#16 ∧
      opnd s 1 = 10#16 ∧ s.csp.toNat ≤ s.rop.toNat ∧ s.rop.toNat + s.roSize.toNat = s.spb.toNat ∧
      execute lib code maxpc s = .ok (eNOERROR, s') ∧
      ¬Apart (strBuf s'.mem 120) (strCap s'.mem 120) s.rop.toNat s.roSize.toNat := by
  have hi : Insn (strCode 7) 3#16
      { strVM [(20, 120#16), (19, 10#16)] with rop := 144#16, roSize := 16#16 } .strlib 0 7#16 :=
    ⟨⟨by show 0 < 3; omega, rfl⟩, fun h => absurd h (by decide),
      fun _ => ⟨0#8, 7#8, rfl, rfl, rfl⟩⟩
  exact ⟨_, _, _, _, hi, by decide, rfl, rfl, by decide, by decide,
    (strlib_exec hlib hi).trans rfl, by decide⟩

/-- Memory of a program with a heap from byte 300 on: the string variable at 120 as in `strVM`. -/
def tmpBase : VM :=
  { strVM [] with
    words := 400
    hpb := 300#16
    hpSize := 400#16 }

def tmpFresh : VM := match initializeHeap tmpBase with
  | .ok s => s
  | _ => tmpBase

theorem tmpFresh_run : initializeHeap tmpBase = .ok tmpFresh := rfl

/-- `tmpFresh` with some words on the stack. -/
def tmpStart (a b c d e : Word) : VM :=
  { tmpFresh with
    mem := updW (updW (updW (updW (updW tmpFresh.mem 20 a) 19 b) 18 c) 17 d) 16 e }

theorem tmpStart_hist (lib : Lib) (code : List Byte) (maxpc : Word) (a b c d e : Word) :
    TempHist lib code maxpc [] (tmpStart a b c d e) := by
  refine .other (.heap (.init ⟨by decide, by decide, by decide, by decide⟩ tmpFresh_run))
    ⟨rfl, rfl, rfl, rfl, fun i hi _ => ?_⟩
  have : (300 : Nat) ≤ 2 * i + 1 := hi
  show updW (updW (updW (updW (updW tmpFresh.mem 20 a) 19 b) 18 c) 17 d) 16 e i = _
  rw [updW_other _ _ (by omega), updW_other _ _ (by omega), updW_other _ _ (by omega),
    updW_other _ _ (by omega), updW_other _ _ (by omega)]

theorem tmpStart_insn (a b c d e : Word) (sub : Byte) (w : Word) (h : w.toNat = sub.toNat) :
    Insn (strCode sub) 3#16 (tmpStart a b c d e) .strlib 0 w :=
  ⟨⟨by show 0 < 3; omega, rfl⟩, fun h => absurd h (by decide),
    fun _ => ⟨0#8, sub, rfl, rfl, by rw [h]; simp⟩⟩

/-- C25: a state in which the string 'abc' is about to be duplicated. -/
example (lib : Lib) : let s := tmpStart 10 160 3 0 0
    TempHist lib (strCode 9) 3#16 [] s ∧ DupCall (strCode 9) 3#16 [] s :=
  ⟨tmpStart_hist .., by decide, by decide, tmpStart_insn _ _ _ _ _ _ _ rfl, by decide,
    .inl (by decide)⟩

/-- C25: a state in which `Copy(s, 2, 2)` is about to be computed. -/
example (lib : Lib) : let s := tmpStart 2 2 10 160 3
    TempHist lib (strCode 15) 3#16 [] s ∧ SubstrCall (strCode 15) 3#16 [] s :=
  ⟨tmpStart_hist .., by decide, by decide, tmpStart_insn _ _ _ _ _ _ _ rfl,
    .inl (by decide), by decide, by decide, by decide⟩

def tmpCfg : Str.Cfg := ⟨80, cmpBy 1, fun _ _ => .ub⟩

/-- After the duplication of 'abc'. -/
def tmpDup : VM :=
  { endVM (Str.strOps tmpCfg (tmpStart 10 160 3 0 0) 9#16) with pc := 3#16 }

/-- Ready to assign to the variable at 120. -/
def tmpReady : VM :=
  { tmpDup with
    sp := 42#16
    mem := updW tmpDup.mem 21 120#16 }

/-- C22: a history in which 'abc' is duplicated and the temporary is about to be assigned to the
variable at 120. -/
example (lib : Lib) (hlib : lib.strOps = Str.strOps tmpCfg) :
    ∃ code b size, TempHist lib code 6#16 [b] tmpReady ∧
      TempAssign code 6#16 b tmpReady 120#16 size 4 := by
  have hi : Insn (strCode 9 ++ strCode 0) 6#16 (tmpStart 10 160 3 0 0) .strlib 0 9#16 :=
    ⟨⟨by show 0 < 6; omega, rfl⟩, fun h => absurd h (by decide), fun _ => ⟨0#8, 9, rfl, rfl, rfl⟩⟩
  have hx : execute lib (strCode 9 ++ strCode 0) 6#16 (tmpStart 10 160 3 0 0) =
      .ok (eNOERROR, tmpDup) := by
    rw [strlib_exec hlib hi, okCode_run (n := 0)
      (r := Str.strOps tmpCfg (tmpStart 10 160 3 0 0) 9#16) (by decide +kernel), Res.ok_bind]
    have : (endVM (Str.strOps tmpCfg (tmpStart 10 160 3 0 0) 9#16)).pc = 0#16 := by decide +kernel
    simp only [this]; rfl
  have h1 := TempHist.dup (lib := lib) (tmpStart_hist lib _ 6#16 10 160 3 0 0)
    ⟨by decide, by decide, hi, by decide, .inl (by decide)⟩ hx
  have h2 : TempHist lib _ _ _ tmpReady := h1.other ⟨rfl, rfl, rfl, rfl, fun i hi _ =>
    updW_other _ _ (by
      have : tmpDup.hpb.toNat = 300 := by decide +kernel
      omega)⟩
  exact ⟨_, _, opnd tmpReady 3, h2,
    ⟨⟨_, _, _, .plain, ⟨⟨by decide +kernel, by decide +kernel⟩, fun h => absurd h (by decide),
      fun _ => ⟨0#8, 0, by decide +kernel, by decide +kernel, rfl⟩⟩, by decide +kernel,
      by decide +kernel⟩, by decide +kernel,
      ⟨by decide +kernel, by decide +kernel, by decide +kernel, by decide +kernel⟩,
      by decide +kernel, by decide +kernel, by decide +kernel, by decide +kernel⟩⟩

end Pas
