import Verif.Lemmas.Long
import Verif.Props.Memory

/-! Properties C16-C18 and C54: 32-bit integers. -/
namespace Pas
open Spec LongOps

theorem longop_exec {lib : Lib} (hlib : lib.longOps8 = longOps8) {code : List Byte} {maxpc : Word}
    {s : VM} {sub : Byte} (hi : Insn code maxpc s .longop8 sub 0) :
    execute lib code maxpc s = longOps8 { s with pc := s.pc + 2#16 } sub := by
  rw [execute_16 (at_of_next hi.next) (by decide) (by decide) (hi.arg8 (by decide)), pexec16, hlib]

theorem signed_fits {r : Int} (h : Fits32 r) :
    signed r = .ok (BitVec.ofInt 32 r) ∧ (BitVec.ofInt 32 r).toInt = r := by
  constructor
  · rw [signed, if_pos]
    unfold Fits32 at h; omega
  · rw [BitVec.toInt_ofInt]
    unfold Fits32 at h
    rw [Int.bmod_def]
    simp
    omega

theorem signed_not {r : Int} (h : ¬Fits32 r) : signed r = .ub := by
  rw [signed, if_neg]
  unfold Fits32 at h; omega

theorem room_top {s : VM} {n : Nat} (h : Room s n) : n ≤ s.top + 1 ∧ s.top < s.words := h

/-- **C16** (ADD, SUB, MUL): whenever the mathematical result is a 32-bit integer, it replaces
the two operands.  Missing: results outside 32 bits (`C16_violation_overflow`). -/
theorem C16_arith_partial (lib : Lib) (hlib : lib.longOps8 = longOps8) (code : List Byte)
    (maxpc : Word) (s : VM) (sub : Byte) (f : Int → Int → Int) (hf : LArith sub f)
    (hi : Insn code maxpc s .longop8 sub 0) (hr : Room s 4)
    (hfit : Fits32 (f (long s 2).toInt (long s 0).toInt)) :
    ∃ s', execute lib code maxpc s = .ok (eNOERROR, s') ∧ Loads s s' 4 2 2 ∧
      (long s' 0).toInt = f (long s 2).toInt (long s 0).toInt := by
  rw [longop_exec hlib hi]
  obtain ⟨h1, h2⟩ := room_top hr
  obtain ⟨e1, e2⟩ := signed_fits hfit
  cases hf
  · obtain ⟨s', a1, a2, a3⟩ := binop32_ok s (fun a b => signed (a.toInt + b.toInt)) _
      (by omega) h2 e1
    exact ⟨s', a1, a2, by rw [a3]; exact e2⟩
  · obtain ⟨s', a1, a2, a3⟩ := binop32_ok s (fun a b => signed (a.toInt - b.toInt)) _
      (by omega) h2 e1
    exact ⟨s', a1, a2, by rw [a3]; exact e2⟩
  · obtain ⟨s', a1, a2, a3⟩ := binop32_ok s (fun a b => signed (a.toInt * b.toInt)) _
      (by omega) h2 e1
    exact ⟨s', a1, a2, by rw [a3]; exact e2⟩

/-- A memory with the longs `a` and `b` on top of the stack of `sampleMem`. -/
def longMem (a b : BitVec 32) : Nat → Word := fun i =>
  if i = 17 then a.extractLsb' 0 16 else if i = 18 then a.extractLsb' 16 16
  else if i = 19 then b.extractLsb' 0 16 else if i = 20 then b.extractLsb' 16 16 else 0

/-- Non-vacuity: 100000 * 300 crosses the word boundary. -/
example : LArith 0x48#8 (fun a b => a * b) ∧
    Insn [Op.longop8.toByte, 0x48] 2#16 (sampleMem (longMem 100000 300)) .longop8 0x48#8 0 ∧
    Room (sampleMem (longMem 100000 300)) 4 ∧
    (long (sampleMem (longMem 100000 300)) 2).toInt = 100000 ∧
    (long (sampleMem (longMem 100000 300)) 0).toInt = 300 ∧
    Fits32 ((100000 : Int) * 300) :=
  ⟨.mul, ⟨⟨by decide, rfl⟩, fun _ => rfl, fun h => absurd h (by decide)⟩, ⟨by decide, by decide⟩,
    by decide, by decide, by unfold Fits32; decide⟩

/-- **C16 fails** on overflow: ADD, SUB and MUL whose result needs more than 32 bits have no
defined behaviour (signed overflow in C), for every state and all such operands. -/
theorem C16_violation_overflow (lib : Lib) (hlib : lib.longOps8 = longOps8) (code : List Byte)
    (maxpc : Word) (s : VM) (sub : Byte) (f : Int → Int → Int) (hf : LArith sub f)
    (hi : Insn code maxpc s .longop8 sub 0) (hr : Room s 4)
    (hfit : ¬Fits32 (f (long s 2).toInt (long s 0).toInt)) :
    execute lib code maxpc s = .ub := by
  rw [longop_exec hlib hi]
  obtain ⟨h1, h2⟩ := room_top hr
  have e1 := signed_not hfit
  cases hf
  · exact binop32_ub s (fun a b => signed (a.toInt + b.toInt)) (by omega) h2 e1
  · exact binop32_ub s (fun a b => signed (a.toInt - b.toInt)) (by omega) h2 e1
  · exact binop32_ub s (fun a b => signed (a.toInt * b.toInt)) (by omega) h2 e1

/-- Non-vacuity of the violation: MAXLONG + 1. -/
example : (long (sampleMem (longMem 2147483647 1)) 2).toInt = 2147483647 ∧
    (long (sampleMem (longMem 2147483647 1)) 0).toInt = 1 ∧ ¬Fits32 ((2147483647 : Int) + 1) :=
  ⟨by decide, by decide, by unfold Fits32; decide⟩

/-- **C16** (NEG, ABS): exact, except for the least integer (`C16_violation_least`). -/
theorem C16_unary_partial (lib : Lib) (hlib : lib.longOps8 = longOps8) (code : List Byte)
    (maxpc : Word) (s : VM) (sub : Byte) (f : Int → Int) (hf : LUnary sub f)
    (hi : Insn code maxpc s .longop8 sub 0) (hr : Room s 2)
    (hne : (long s 0).toInt ≠ -2147483648) :
    ∃ s', execute lib code maxpc s = .ok (eNOERROR, s') ∧ Loads s s' 2 2 2 ∧
      (long s' 0).toInt = f (long s 0).toInt := by
  rw [longop_exec hlib hi]
  obtain ⟨h1, h2⟩ := room_top hr
  have hb1 := BitVec.le_toInt (long s 0)
  have hb2 := BitVec.toInt_lt (x := long s 0)
  obtain ⟨e1, e2⟩ := signed_fits (r := -(long s 0).toInt) (by unfold Fits32; omega)
  cases hf
  · obtain ⟨s', a1, a2, a3⟩ := unop32_ok s (fun a => signed (-a.toInt)) _ (by omega) h2 e1
    exact ⟨s', a1, a2, by rw [a3]; exact e2⟩
  · show ∃ s', (do
      let a ← getTos32 { s with pc := s.pc + 2#16 } 0
      if a.toInt < 0 then
        let r ← signed (-a.toInt)
        let s ← putTos32 { s with pc := s.pc + 2#16 } r 0
        pure (eNOERROR, s)
      else pure (eNOERROR, { s with pc := s.pc + 2#16 }) : Res (Nat × VM)) = _ ∧ _
    rw [getTos32_eq _ 0 (by show 1 ≤ s.top; omega) (by exact h2)]
    simp only [Res.ok_bind]
    have hl : (s.mem (s.top - 0) ++ s.mem (s.top - (0 + 1)) : BitVec 32) = long s 0 := rfl
    by_cases hneg : (long s 0).toInt < 0
    · rw [if_pos (by exact hneg)]
      refine ⟨_, ?_, (put_loads s (BitVec.ofInt 32 (-(long s 0).toInt)) (by omega)).1, ?_⟩
      · show (do let r ← signed (-(long s 0).toInt); _) = _
        rw [e1, Res.ok_bind, putTos32_eq _ _ 0 (by show 1 ≤ s.top; omega) (by exact h2)]
        rfl
      · rw [(put_loads s (BitVec.ofInt 32 (-(long s 0).toInt)) (by omega)).2, e2, if_pos hneg]
    · rw [if_neg (by exact hneg)]
      refine ⟨_, rfl, ⟨rfl, rfl, rfl, fun _ _ => rfl⟩, ?_⟩
      rw [if_neg hneg]; rfl

/-- Non-vacuity: the absolute value of -70000. -/
example : LUnary 0x42#8 (fun a => if a < 0 then -a else a) ∧
    Insn [Op.longop8.toByte, 0x42] 2#16 (sampleMem (longMem 0 (-70000))) .longop8 0x42#8 0 ∧
    Room (sampleMem (longMem 0 (-70000))) 2 ∧
    (long (sampleMem (longMem 0 (-70000))) 0).toInt = -70000 :=
  ⟨.abs, ⟨⟨by decide, rfl⟩, fun _ => rfl, fun h => absurd h (by decide)⟩, ⟨by decide, by decide⟩,
    by decide⟩

/-- **C16 fails** for NEG and ABS of the least 32-bit integer. -/
theorem C16_violation_least (lib : Lib) (hlib : lib.longOps8 = longOps8) (code : List Byte)
    (maxpc : Word) (s : VM) (sub : Byte) (f : Int → Int) (hf : LUnary sub f)
    (hi : Insn code maxpc s .longop8 sub 0) (hr : Room s 2)
    (he : (long s 0).toInt = -2147483648) : execute lib code maxpc s = .ub := by
  rw [longop_exec hlib hi]
  obtain ⟨h1, h2⟩ := room_top hr
  have e1 : signed (-(long s 0).toInt) = .ub := signed_not (by rw [he]; unfold Fits32; decide)
  cases hf
  · exact unop32_ub s (fun a => signed (-a.toInt)) (by omega) h2 e1
  · show (do
      let a ← getTos32 { s with pc := s.pc + 2#16 } 0
      if a.toInt < 0 then
        let r ← signed (-a.toInt)
        let s ← putTos32 { s with pc := s.pc + 2#16 } r 0
        pure (eNOERROR, s)
      else pure (eNOERROR, { s with pc := s.pc + 2#16 }) : Res (Nat × VM)) = _
    rw [getTos32_eq _ 0 (by show 1 ≤ s.top; omega) (by exact h2)]
    simp only [Res.ok_bind]
    rw [if_pos (by show (long s 0).toInt < 0; omega)]
    show (do let r ← signed (-(long s 0).toInt); _) = _
    rw [e1]
    rfl

/-- Non-vacuity of the violation. -/
example : (long (sampleMem (longMem 0 0x80000000)) 0).toInt = -2147483648 := by decide

/-- **C16** (INC, DEC, NOT): exact modulo 2^32 for every operand. -/
theorem C16_step (lib : Lib) (hlib : lib.longOps8 = longOps8) (code : List Byte)
    (maxpc : Word) (s : VM) (sub : Byte) (f : Int → Int) (hf : LStep sub f)
    (hi : Insn code maxpc s .longop8 sub 0) (hr : Room s 2) :
    ∃ s', execute lib code maxpc s = .ok (eNOERROR, s') ∧ Loads s s' 2 2 2 ∧
      (long s' 0).toInt = wrap32 (f (long s 0).toInt) := by
  rw [longop_exec hlib hi]
  obtain ⟨h1, h2⟩ := room_top hr
  cases hf
  · obtain ⟨s', a1, a2, a3⟩ := unop32_ok s (fun a => .ok (a + 1#32)) _ (by omega) h2 rfl
    exact ⟨s', a1, a2, by rw [a3, BitVec.toInt_add]; rfl⟩
  · obtain ⟨s', a1, a2, a3⟩ := unop32_ok s (fun a => .ok (a - 1#32)) _ (by omega) h2 rfl
    exact ⟨s', a1, a2, by rw [a3, BitVec.toInt_sub]; rfl⟩
  · obtain ⟨s', a1, a2, a3⟩ := unop32_ok s (fun a => .ok (~~~a)) _ (by omega) h2 rfl
    refine ⟨s', a1, a2, ?_⟩
    rw [a3, BitVec.toInt_not]
    unfold wrap32
    rw [BitVec.toInt_eq_toNat_bmod]
    have := (long s 0).isLt
    simp only [Int.bmod_def] at *
    simp at *
    omega

/-- Non-vacuity. -/
example : LStep 0x43#8 (fun a => a + 1) ∧
    Insn [Op.longop8.toByte, 0x43] 2#16 (sampleMem (longMem 0 65535)) .longop8 0x43#8 0 ∧
    Room (sampleMem (longMem 0 65535)) 2 :=
  ⟨.inc, ⟨⟨by decide, rfl⟩, fun _ => rfl, fun h => absurd h (by decide)⟩, ⟨by decide, by decide⟩⟩

/-- **C16** (bitwise): every bit of OR, AND and XOR. -/
theorem C16_bitwise (lib : Lib) (hlib : lib.longOps8 = longOps8) (code : List Byte)
    (maxpc : Word) (s : VM) (sub : Byte) (f : Bool → Bool → Bool) (hf : LBits sub f)
    (hi : Insn code maxpc s .longop8 sub 0) (hr : Room s 4) :
    ∃ s', execute lib code maxpc s = .ok (eNOERROR, s') ∧ Loads s s' 4 2 2 ∧
      ∀ i < 32, (long s' 0).getLsbD i = f ((long s 2).getLsbD i) ((long s 0).getLsbD i) := by
  rw [longop_exec hlib hi]
  obtain ⟨h1, h2⟩ := room_top hr
  cases hf
  · obtain ⟨s', a1, a2, a3⟩ := binop32_ok s (fun a b => .ok (a ||| b)) _ (by omega) h2 rfl
    exact ⟨s', a1, a2, by rw [a3]; intro i _; rw [BitVec.getLsbD_or]⟩
  · obtain ⟨s', a1, a2, a3⟩ := binop32_ok s (fun a b => .ok (a &&& b)) _ (by omega) h2 rfl
    exact ⟨s', a1, a2, by rw [a3]; intro i _; rw [BitVec.getLsbD_and]⟩
  · obtain ⟨s', a1, a2, a3⟩ := binop32_ok s (fun a b => .ok (a ^^^ b)) _ (by omega) h2 rfl
    exact ⟨s', a1, a2, by rw [a3]; intro i _; rw [BitVec.getLsbD_xor]⟩

/-- Non-vacuity. -/
example : LBits 0x68#8 (fun a b => a != b) ∧
    Insn [Op.longop8.toByte, 0x68] 2#16 (sampleMem (longMem 5 65536)) .longop8 0x68#8 0 ∧
    Room (sampleMem (longMem 5 65536)) 4 :=
  ⟨.xor, ⟨⟨by decide, rfl⟩, fun _ => rfl, fun h => absurd h (by decide)⟩, ⟨by decide, by decide⟩⟩

/-- **C16** (unsigned multiplication): exact modulo 2^32. -/
theorem C16_umul (lib : Lib) (hlib : lib.longOps8 = longOps8) (code : List Byte)
    (maxpc : Word) (s : VM) (hi : Insn code maxpc s .longop8 0x61#8 0) (hr : Room s 4) :
    ∃ s', execute lib code maxpc s = .ok (eNOERROR, s') ∧ Loads s s' 4 2 2 ∧
      (long s' 0).toNat = (long s 2).toNat * (long s 0).toNat % 4294967296 := by
  rw [longop_exec hlib hi]
  obtain ⟨h1, h2⟩ := room_top hr
  obtain ⟨s', a1, a2, a3⟩ := binop32_ok s (fun a b => .ok (a * b)) _ (by omega) h2 rfl
  exact ⟨s', a1, a2, by rw [a3, BitVec.toNat_mul]⟩

/-- Non-vacuity. -/
example : Insn [Op.longop8.toByte, 0x61] 2#16 (sampleMem (longMem 5 65536)) .longop8 0x61#8 0 ∧
    Room (sampleMem (longMem 5 65536)) 4 :=
  ⟨⟨⟨by decide, rfl⟩, fun _ => rfl, fun h => absurd h (by decide)⟩, ⟨by decide, by decide⟩⟩

/-! ### C54: division, remainder and shifts -/

/-- **C54** (signed): DIV truncates and MOD is the matching remainder, for every nonzero divisor
except the overflowing quotient of the least integer by -1.  Missing: those two cases. -/
theorem C54_divmod_partial (lib : Lib) (hlib : lib.longOps8 = longOps8) (code : List Byte)
    (maxpc : Word) (s : VM) (sub : Byte) (f : Int → Int → Int)
    (hf : (sub = 0x49#8 ∧ f = Int.tdiv) ∨ (sub = 0x4a#8 ∧ f = Int.tmod))
    (hi : Insn code maxpc s .longop8 sub 0) (hr : Room s 4)
    (hz : (long s 0).toInt ≠ 0)
    (ho : ¬((long s 2).toInt = -2147483648 ∧ (long s 0).toInt = -1)) :
    ∃ s', execute lib code maxpc s = .ok (eNOERROR, s') ∧ Loads s s' 4 2 2 ∧
      (long s' 0).toInt = f (long s 2).toInt (long s 0).toInt := by
  rw [longop_exec hlib hi]
  obtain ⟨h1, h2⟩ := room_top hr
  have hb1 := BitVec.le_toInt (long s 2)
  have hb2 := BitVec.toInt_lt (x := long s 2)
  have hc1 := BitVec.le_toInt (long s 0)
  have hc2 := BitVec.toInt_lt (x := long s 0)
  rcases hf with ⟨rfl, rfl⟩ | ⟨rfl, rfl⟩
  · have hq : Fits32 ((long s 2).toInt.tdiv (long s 0).toInt) := by
      generalize (long s 2).toInt = a at *
      generalize (long s 0).toInt = b at *
      have hle : (a.tdiv b).natAbs = a.natAbs / b.natAbs := Int.natAbs_tdiv a b
      by_cases hb : b.natAbs = 1
      · have : b = 1 ∨ b = -1 := by omega
        rcases this with rfl | rfl
        · rw [Int.tdiv_one]; unfold Fits32; omega
        · rw [Int.tdiv_neg, Int.tdiv_one]; unfold Fits32; omega
      · have : a.natAbs / b.natAbs ≤ a.natAbs / 2 := Nat.div_le_div_left (by omega) (by omega)
        unfold Fits32
        omega
    obtain ⟨e1, e2⟩ := signed_fits hq
    obtain ⟨s', a1, a2, a3⟩ := binop32_ok s (fun a b =>
      if b.toInt = 0 then .ub else signed (Int.tdiv a.toInt b.toInt)) _ (by omega) h2
      (by rw [if_neg hz]; exact e1)
    exact ⟨s', a1, a2, by rw [a3]; exact e2⟩
  · have hq : Fits32 ((long s 2).toInt.tmod (long s 0).toInt) := by
      generalize (long s 2).toInt = a at *
      generalize (long s 0).toInt = b at *
      have hlt : (a.tmod b).natAbs = a.natAbs % b.natAbs := Int.natAbs_tmod a b
      have : a.natAbs % b.natAbs ≤ a.natAbs := Nat.mod_le _ _
      have hlt2 : a.natAbs % b.natAbs < b.natAbs := Nat.mod_lt _ (by omega)
      unfold Fits32
      omega
    obtain ⟨e1, e2⟩ := signed_fits hq
    obtain ⟨s', a1, a2, a3⟩ := binop32_ok s (fun a b =>
      if b.toInt = 0 ∨ (a.toInt = -2147483648 ∧ b.toInt = -1) then .ub
      else signed (Int.tmod a.toInt b.toInt)) _ (by omega) h2
      (by rw [if_neg (by omega)]; exact e1)
    exact ⟨s', a1, a2, by rw [a3]; exact e2⟩

/-- Non-vacuity: -100000 DIV 7. -/
example : Insn [Op.longop8.toByte, 0x49] 2#16 (sampleMem (longMem (-100000) 7)) .longop8 0x49#8 0 ∧
    Room (sampleMem (longMem (-100000) 7)) 4 ∧ (long (sampleMem (longMem (-100000) 7)) 0).toInt = 7 ∧
    (long (sampleMem (longMem (-100000) 7)) 2).toInt = -100000 :=
  ⟨⟨⟨by decide, rfl⟩, fun _ => rfl, fun h => absurd h (by decide)⟩, ⟨by decide, by decide⟩,
    by decide, by decide⟩

/-- **C54** (unsigned): quotient and remainder for every nonzero divisor. -/
theorem C54_udivmod_partial (lib : Lib) (hlib : lib.longOps8 = longOps8) (code : List Byte)
    (maxpc : Word) (s : VM) (sub : Byte) (f : Nat → Nat → Nat)
    (hf : (sub = 0x62#8 ∧ f = fun a b => a / b) ∨ (sub = 0x63#8 ∧ f = fun a b => a % b))
    (hi : Insn code maxpc s .longop8 sub 0) (hr : Room s 4) (hz : (long s 0).toNat ≠ 0) :
    ∃ s', execute lib code maxpc s = .ok (eNOERROR, s') ∧ Loads s s' 4 2 2 ∧
      (long s' 0).toNat = f (long s 2).toNat (long s 0).toNat := by
  rw [longop_exec hlib hi]
  obtain ⟨h1, h2⟩ := room_top hr
  have hl := (long s 2).isLt
  rcases hf with ⟨rfl, rfl⟩ | ⟨rfl, rfl⟩
  · obtain ⟨s', a1, a2, a3⟩ := binop32_ok s (fun a b =>
      if b.toNat = 0 then .ub else .ok (BitVec.ofNat 32 (a.toNat / b.toNat))) _ (by omega) h2
      (by rw [if_neg hz])
    refine ⟨s', a1, a2, ?_⟩
    rw [a3, BitVec.toNat_ofNat]
    exact Nat.mod_eq_of_lt (Nat.lt_of_le_of_lt (Nat.div_le_self _ _) hl)
  · obtain ⟨s', a1, a2, a3⟩ := binop32_ok s (fun a b =>
      if b.toNat = 0 then .ub else .ok (BitVec.ofNat 32 (a.toNat % b.toNat))) _ (by omega) h2
      (by rw [if_neg hz])
    refine ⟨s', a1, a2, ?_⟩
    rw [a3, BitVec.toNat_ofNat]
    exact Nat.mod_eq_of_lt (Nat.lt_of_le_of_lt (Nat.mod_le _ _) hl)

/-- Non-vacuity. -/
example : Insn [Op.longop8.toByte, 0x63] 2#16 (sampleMem (longMem 100000 7)) .longop8 0x63#8 0 ∧
    (long (sampleMem (longMem 100000 7)) 0).toNat ≠ 0 :=
  ⟨⟨⟨by decide, rfl⟩, fun _ => rfl, fun h => absurd h (by decide)⟩, by decide⟩

/-- **C54 fails**: a zero divisor is not reported; all four operations are undefined. -/
theorem C54_violation_zero (lib : Lib) (hlib : lib.longOps8 = longOps8) (code : List Byte)
    (maxpc : Word) (s : VM) (sub : Byte)
    (hs : sub = 0x49#8 ∨ sub = 0x4a#8 ∨ sub = 0x62#8 ∨ sub = 0x63#8)
    (hi : Insn code maxpc s .longop8 sub 0) (hr : Room s 4) (hz : long s 0 = 0#32) :
    execute lib code maxpc s = .ub := by
  rw [longop_exec hlib hi]
  obtain ⟨h1, h2⟩ := room_top hr
  rcases hs with rfl | rfl | rfl | rfl
  · exact binop32_ub s (fun a b =>
      if b.toInt = 0 then .ub else signed (Int.tdiv a.toInt b.toInt)) (by omega) h2
      (by rw [hz]; rfl)
  · exact binop32_ub s (fun a b =>
      if b.toInt = 0 ∨ (a.toInt = -2147483648 ∧ b.toInt = -1) then .ub
      else signed (Int.tmod a.toInt b.toInt)) (by omega) h2
      (by rw [hz, if_pos (Or.inl (by decide))])
  · exact binop32_ub s (fun a b =>
      if b.toNat = 0 then .ub else .ok (BitVec.ofNat 32 (a.toNat / b.toNat))) (by omega) h2
      (by rw [hz]; rfl)
  · exact binop32_ub s (fun a b =>
      if b.toNat = 0 then .ub else .ok (BitVec.ofNat 32 (a.toNat % b.toNat))) (by omega) h2
      (by rw [hz]; rfl)

/-- Non-vacuity of the violation. -/
example : long (sampleMem (longMem 100000 0)) 0 = 0#32 := by decide

theorem shift32_ok (s : VM) (f : BitVec 32 → Nat → BitVec 32) (h1 : 2 ≤ s.top)
    (h2 : s.top < s.words) (hc : (opnd s 0).toNat < 32) :
    ∃ s', shift32 { s with pc := s.pc + 2#16 } f = .ok (eNOERROR, s') ∧ Loads s s' 3 2 2 ∧
      long s' 0 = f (long s 1) (opnd s 0).toNat := by
  unfold shift32
  have ht : s.top = s.sp.toNat / 2 := rfl
  have hc' : (s.mem s.top).toNat < 32 := hc
  rw [VM.pop_eq _ (by exact h2)]
  simp only [Res.ok_bind]
  have htop : ({ s with pc := s.pc + 2#16, sp := s.sp - 2#16 } : VM).top = s.top - 1 :=
    VM.sub2_div _ (by show 1 ≤ s.top; omega)
  rw [getTos32_eq _ 0 (by rw [htop]; omega) (by rw [htop]; show _ < s.words; omega)]
  simp only [Res.ok_bind, htop]
  rw [if_pos (by exact hc')]
  rw [putTos32_eq _ _ 0 (by rw [htop]; omega) (by rw [htop]; show _ < s.words; omega)]
  simp only [Res.ok_bind, htop]
  refine ⟨_, rfl, ⟨rfl, ?_, rfl, ?_⟩, ?_⟩
  · show (s.sp - 2#16).toNat + 2 * 3 = s.sp.toNat + 2 * 2
    bv_omega
  · intro i hi
    show updW _ _ _ i = _
    rw [updW_other _ _ (by omega), updW_other _ _ (by omega)]
  · unfold long opnd
    have e : (s.sp - 2#16).toNat / 2 = s.top - 1 := htop
    show (updW _ _ _ ((s.sp - 2#16).toNat / 2 - 0) ++
      updW _ _ _ ((s.sp - 2#16).toNat / 2 - (0 + 1)) : BitVec 32) = _
    rw [e, updW_same, updW_other _ _ (by omega), updW_same, split_long]
    show f (s.mem (s.top - 1 - 0) ++ s.mem (s.top - 1 - (0 + 1)))
      (s.mem ({ s with pc := s.pc + 2#16 } : VM).top).toNat =
      f (s.mem (s.top - 1) ++ s.mem (s.top - (1 + 1))) (s.mem (s.top - 0)).toNat
    rw [show s.top - 1 - 0 = s.top - 1 by omega, show s.top - 1 - (0 + 1) = s.top - (1 + 1) by omega]
    rfl

/-- **C54** (shifts): for counts below 32, SLL multiplies modulo 2^32, SRL divides the unsigned
and SRA (flooring) the signed value by 2^count. -/
theorem C54_shift_partial (lib : Lib) (hlib : lib.longOps8 = longOps8) (code : List Byte)
    (maxpc : Word) (s : VM) (sub : Byte) (hs : sub = 0x4b#8 ∨ sub = 0x4c#8 ∨ sub = 0x4d#8)
    (hi : Insn code maxpc s .longop8 sub 0) (hr : Room s 3) (hc : (opnd s 0).toNat < 32) :
    ∃ s', execute lib code maxpc s = .ok (eNOERROR, s') ∧ Loads s s' 3 2 2 ∧
      (sub = 0x4b#8 → (long s' 0).toNat =
        (long s 1).toNat * 2 ^ (opnd s 0).toNat % 4294967296) ∧
      (sub = 0x4c#8 → (long s' 0).toNat = (long s 1).toNat / 2 ^ (opnd s 0).toNat) ∧
      (sub = 0x4d#8 → (long s' 0).toInt = (long s 1).toInt / 2 ^ (opnd s 0).toNat) := by
  rw [longop_exec hlib hi]
  obtain ⟨h1, h2⟩ := room_top hr
  rcases hs with rfl | rfl | rfl
  · obtain ⟨s', a1, a2, a3⟩ := shift32_ok s (fun a n => a <<< n) (by omega) h2 hc
    refine ⟨s', a1, a2, fun _ => ?_, fun h => absurd h (by decide), fun h => absurd h (by decide)⟩
    rw [a3, BitVec.toNat_shiftLeft, Nat.shiftLeft_eq]
  · obtain ⟨s', a1, a2, a3⟩ := shift32_ok s (fun a n => a >>> n) (by omega) h2 hc
    refine ⟨s', a1, a2, fun h => absurd h (by decide), fun _ => ?_, fun h => absurd h (by decide)⟩
    rw [a3, BitVec.toNat_ushiftRight, Nat.shiftRight_eq_div_pow]
  · obtain ⟨s', a1, a2, a3⟩ := shift32_ok s (fun a n => a.sshiftRight n) (by omega) h2 hc
    refine ⟨s', a1, a2, fun h => absurd h (by decide), fun h => absurd h (by decide), fun _ => ?_⟩
    rw [a3, BitVec.toInt_sshiftRight, Int.shiftRight_eq_div_pow]
    norm_cast

/-- Non-vacuity: shift right by 20. -/
example : Insn [Op.longop8.toByte, 0x4d] 2#16
      (sampleMem (fun i => if i = 20 then 20 else 0x8000)) .longop8 0x4d#8 0 ∧
    Room (sampleMem (fun i => if i = 20 then 20 else 0x8000)) 3 ∧
    (opnd (sampleMem (fun i => if i = 20 then 20 else 0x8000)) 0).toNat = 20 :=
  ⟨⟨⟨by decide, rfl⟩, fun _ => rfl, fun h => absurd h (by decide)⟩, ⟨by decide, by decide⟩, by decide⟩

/-! ### C17: comparisons -/

theorem isBool_of_iff {b : Bool} {P : Prop} (h : b = true ↔ P) : IsBool (pasBool b) P := by
  constructor
  · intro hp; rw [h.2 hp]; decide
  · intro hp
    have : b = false := by
      cases b with
      | false => rfl
      | true => exact absurd (h.1 rfl) hp
    rw [this]; decide

/-- **C17** (against zero): all six comparisons with zero. -/
theorem C17_zero (lib : Lib) (hlib : lib.longOps8 = longOps8) (code : List Byte)
    (maxpc : Word) (s : VM) (sub : Byte) (R : Int → Prop) (hf : LCmpZ sub R)
    (hi : Insn code maxpc s .longop8 sub 0) (hr : Room s 2) :
    ∃ s', execute lib code maxpc s = .ok (eNOERROR, s') ∧ Loads s s' 2 1 2 ∧
      IsBool (opnd s' 0) (R (long s 0).toInt) := by
  rw [longop_exec hlib hi]
  obtain ⟨h1, h2⟩ := room_top hr
  cases hf
  · obtain ⟨s', a1, a2, a3⟩ := cmpz32_ok s (fun a => decide (a.toInt = 0)) (by omega) h2
    exact ⟨s', a1, a2, by rw [a3]; exact isBool_of_iff decide_eq_true_iff⟩
  · obtain ⟨s', a1, a2, a3⟩ := cmpz32_ok s (fun a => decide (a.toInt ≠ 0)) (by omega) h2
    exact ⟨s', a1, a2, by rw [a3]; exact isBool_of_iff decide_eq_true_iff⟩
  · obtain ⟨s', a1, a2, a3⟩ := cmpz32_ok s (fun a => decide (a.toInt < 0)) (by omega) h2
    exact ⟨s', a1, a2, by rw [a3]; exact isBool_of_iff decide_eq_true_iff⟩
  · obtain ⟨s', a1, a2, a3⟩ := cmpz32_ok s (fun a => decide (a.toInt ≥ 0)) (by omega) h2
    exact ⟨s', a1, a2, by rw [a3]; exact isBool_of_iff decide_eq_true_iff⟩
  · obtain ⟨s', a1, a2, a3⟩ := cmpz32_ok s (fun a => decide (a.toInt > 0)) (by omega) h2
    exact ⟨s', a1, a2, by rw [a3]; exact isBool_of_iff decide_eq_true_iff⟩
  · obtain ⟨s', a1, a2, a3⟩ := cmpz32_ok s (fun a => decide (a.toInt ≤ 0)) (by omega) h2
    exact ⟨s', a1, a2, by rw [a3]; exact isBool_of_iff decide_eq_true_iff⟩

/-- Non-vacuity. -/
example : LCmpZ 0x52#8 (fun a => a < 0) ∧
    Insn [Op.longop8.toByte, 0x52] 2#16 (sampleMem (longMem 0 (-70000))) .longop8 0x52#8 0 ∧
    Room (sampleMem (longMem 0 (-70000))) 2 :=
  ⟨.ltz, ⟨⟨by decide, rfl⟩, fun _ => rfl, fun h => absurd h (by decide)⟩, ⟨by decide, by decide⟩⟩

/-- **C17** (equality): equality and inequality are right.  Missing: the four orderings, which
the code gets wrong (`C17_violation_swapped`). -/
theorem C17_equality_partial (lib : Lib) (hlib : lib.longOps8 = longOps8) (code : List Byte)
    (maxpc : Word) (s : VM) (sub : Byte) (R : Int → Int → Prop) (hf : LCmp sub R)
    (hs : sub = 0x56#8 ∨ sub = 0x57#8)
    (hi : Insn code maxpc s .longop8 sub 0) (hr : Room s 4) :
    ∃ s', execute lib code maxpc s = .ok (eNOERROR, s') ∧ Loads s s' 4 1 2 ∧
      IsBool (opnd s' 0) (R (long s 2).toInt (long s 0).toInt) := by
  rw [longop_exec hlib hi]
  obtain ⟨h1, h2⟩ := room_top hr
  cases hf
  · obtain ⟨s', a1, a2, a3⟩ := cmp32_ok s (fun p1 p2 => decide (p1.toInt = p2.toInt)) (by omega) h2
    exact ⟨s', a1, a2, by rw [a3]; exact isBool_of_iff (decide_eq_true_iff.trans eq_comm)⟩
  · obtain ⟨s', a1, a2, a3⟩ := cmp32_ok s (fun p1 p2 => decide (p1.toInt ≠ p2.toInt)) (by omega) h2
    exact ⟨s', a1, a2, by rw [a3]; exact isBool_of_iff (decide_eq_true_iff.trans ne_comm)⟩
  all_goals rcases hs with h | h <;> exact absurd h (by decide)

/-- Non-vacuity. -/
example : LCmp 0x57#8 (fun a b => a ≠ b) ∧
    Insn [Op.longop8.toByte, 0x57] 2#16 (sampleMem (longMem 65537 1)) .longop8 0x57#8 0 ∧
    Room (sampleMem (longMem 65537 1)) 4 :=
  ⟨.neq, ⟨⟨by decide, rfl⟩, fun _ => rfl, fun h => absurd h (by decide)⟩, ⟨by decide, by decide⟩⟩

/-- **C17 fails** for the signed orderings: whatever the operands `a` (pushed first) and `b`,
the instruction for `a op b` leaves the truth value of `b op a`. -/
theorem C17_violation_swapped (lib : Lib) (hlib : lib.longOps8 = longOps8) (code : List Byte)
    (maxpc : Word) (s : VM) (sub : Byte) (R : Int → Int → Prop) (hf : LCmp sub R)
    (hi : Insn code maxpc s .longop8 sub 0) (hr : Room s 4) :
    ∃ s', execute lib code maxpc s = .ok (eNOERROR, s') ∧ Loads s s' 4 1 2 ∧
      IsBool (opnd s' 0) (R (long s 0).toInt (long s 2).toInt) := by
  rw [longop_exec hlib hi]
  obtain ⟨h1, h2⟩ := room_top hr
  cases hf
  · obtain ⟨s', a1, a2, a3⟩ := cmp32_ok s (fun p1 p2 => decide (p1.toInt = p2.toInt)) (by omega) h2
    exact ⟨s', a1, a2, by rw [a3]; exact isBool_of_iff decide_eq_true_iff⟩
  · obtain ⟨s', a1, a2, a3⟩ := cmp32_ok s (fun p1 p2 => decide (p1.toInt ≠ p2.toInt)) (by omega) h2
    exact ⟨s', a1, a2, by rw [a3]; exact isBool_of_iff decide_eq_true_iff⟩
  · obtain ⟨s', a1, a2, a3⟩ := cmp32_ok s (fun p1 p2 => decide (p1.toInt < p2.toInt)) (by omega) h2
    exact ⟨s', a1, a2, by rw [a3]; exact isBool_of_iff decide_eq_true_iff⟩
  · obtain ⟨s', a1, a2, a3⟩ := cmp32_ok s (fun p1 p2 => decide (p1.toInt ≥ p2.toInt)) (by omega) h2
    exact ⟨s', a1, a2, by rw [a3]; exact isBool_of_iff decide_eq_true_iff⟩
  · obtain ⟨s', a1, a2, a3⟩ := cmp32_ok s (fun p1 p2 => decide (p1.toInt > p2.toInt)) (by omega) h2
    exact ⟨s', a1, a2, by rw [a3]; exact isBool_of_iff decide_eq_true_iff⟩
  · obtain ⟨s', a1, a2, a3⟩ := cmp32_ok s (fun p1 p2 => decide (p1.toInt ≤ p2.toInt)) (by omega) h2
    exact ⟨s', a1, a2, by rw [a3]; exact isBool_of_iff decide_eq_true_iff⟩

/-- **C17 fails** concretely: `1 < 2` is FALSE and `2 < 1` is TRUE for LongIntegers, and the
unsigned `5 < 3` is TRUE. -/
theorem C17_violation_examples (lib : Lib) (hlib : lib.longOps8 = longOps8) :
    (∃ (code : List Byte) (maxpc : Word) (s s' : VM), Insn code maxpc s .longop8 0x58#8 0 ∧
      Room s 4 ∧ (long s 2).toInt = 1 ∧ (long s 0).toInt = 2 ∧
      execute lib code maxpc s = .ok (eNOERROR, s') ∧ (opnd s' 0).toInt = 0) ∧
    (∃ (code : List Byte) (maxpc : Word) (s s' : VM), Insn code maxpc s .longop8 0x58#8 0 ∧
      Room s 4 ∧ (long s 2).toInt = 2 ∧ (long s 0).toInt = 1 ∧
      execute lib code maxpc s = .ok (eNOERROR, s') ∧ (opnd s' 0).toInt = -1) ∧
    (∃ (code : List Byte) (maxpc : Word) (s s' : VM), Insn code maxpc s .longop8 0x64#8 0 ∧
      Room s 4 ∧ (long s 2).toNat = 5 ∧ (long s 0).toNat = 3 ∧
      execute lib code maxpc s = .ok (eNOERROR, s') ∧ (opnd s' 0).toInt = -1) := by
  refine ⟨?_, ?_, ?_⟩
  · have hi : Insn [Op.longop8.toByte, 0x58] 2#16 (sampleMem (longMem 1 2)) .longop8 0x58#8 0 :=
      ⟨⟨by decide, rfl⟩, fun _ => rfl, fun h => absurd h (by decide)⟩
    exact ⟨_, _, _, _, hi, ⟨by decide, by decide⟩, by decide, by decide,
      (longop_exec hlib hi).trans rfl, by decide⟩
  · have hi : Insn [Op.longop8.toByte, 0x58] 2#16 (sampleMem (longMem 2 1)) .longop8 0x58#8 0 :=
      ⟨⟨by decide, rfl⟩, fun _ => rfl, fun h => absurd h (by decide)⟩
    exact ⟨_, _, _, _, hi, ⟨by decide, by decide⟩, by decide, by decide,
      (longop_exec hlib hi).trans rfl, by decide⟩
  · have hi : Insn [Op.longop8.toByte, 0x64] 2#16 (sampleMem (longMem 5 3)) .longop8 0x64#8 0 :=
      ⟨⟨by decide, rfl⟩, fun _ => rfl, fun h => absurd h (by decide)⟩
    exact ⟨_, _, _, _, hi, ⟨by decide, by decide⟩, by decide, by decide,
      (longop_exec hlib hi).trans rfl, by decide⟩

/-- **C17** (branches): the 32-bit branch routine compares in the right order.  It is stated for
the routine because the interpreter never reaches it (`C08_violation_longop24`). -/
theorem C17_branch_partial (s : VM) (sub : Byte) (imm : Word) (R : BitVec 32 → BitVec 32 → Prop)
    (hf : LJump sub R) (hr : Room s 4) (hsp8 : 8 ≤ s.sp.toNat) :
    ∃ s', longOps24 s sub imm = .ok (eNOERROR, s') ∧
      ((R (long s 2) (long s 0) → Pops s s' 4 imm) ∧
       (¬R (long s 2) (long s 0) → Pops s s' 4 (s.pc + 4#16))) := by
  obtain ⟨h1, h2⟩ := room_top hr
  have ht : s.top = s.sp.toNat / 2 := rfl
  have hsp := s.sp.isLt
  have gen : ∀ (f : BitVec 32 → BitVec 32 → Bool) (P : Prop),
      (f (long s 2) (long s 0) = true ↔ P) →
      ∃ s', djump2 s imm f = .ok (eNOERROR, s') ∧ ((P → Pops s s' 4 imm) ∧
        (¬P → Pops s s' 4 (s.pc + 4#16))) := by
    intro f P hfP
    unfold djump2
    rw [pop32_eq _ (by omega) h2]
    simp only [Res.ok_bind]
    have htop : ({ s with sp := s.sp - 2#16 - 2#16 } : VM).top = s.top - 2 := sub4_top s (by omega)
    rw [pop32_eq _ (by rw [htop]; omega) (by rw [htop]; show _ < s.words; omega)]
    simp only [Res.ok_bind, htop]
    have e : (s.mem (s.top - 2) ++ s.mem (s.top - 2 - 1) : BitVec 32) = long s 2 := by
      rw [show s.top - 2 - 1 = s.top - (2 + 1) by omega]; rfl
    have e2 : (s.mem s.top ++ s.mem (s.top - 1) : BitVec 32) = long s 0 := rfl
    refine ⟨_, rfl, fun hp => ⟨rfl, ?_, ?_⟩, fun hp => ⟨rfl, ?_, ?_⟩⟩
    · show (s.sp - 2#16 - 2#16 - 2#16 - 2#16).toNat + 2 * 4 = _
      bv_omega
    · show (if f _ _ = true then imm else _) = _
      rw [e, e2, if_pos (hfP.2 hp)]
    · show (s.sp - 2#16 - 2#16 - 2#16 - 2#16).toNat + 2 * 4 = _
      bv_omega
    · show (if f _ _ = true then imm else _) = _
      rw [e, e2, if_neg (fun h => hp (hfP.1 h))]
  cases hf
  · exact gen (fun a b => decide (a.toInt = b.toInt)) _ decide_eq_true_iff
  · exact gen (fun a b => decide (a.toInt ≠ b.toInt)) _ decide_eq_true_iff
  · exact gen (fun a b => decide (a.toInt < b.toInt)) _ decide_eq_true_iff
  · exact gen (fun a b => decide (a.toInt ≥ b.toInt)) _ decide_eq_true_iff
  · exact gen (fun a b => decide (a.toInt > b.toInt)) _ decide_eq_true_iff
  · exact gen (fun a b => decide (a.toInt ≤ b.toInt)) _ decide_eq_true_iff
  · exact gen (fun a b => decide (a.toNat < b.toNat)) _ decide_eq_true_iff
  · exact gen (fun a b => decide (a.toNat ≥ b.toNat)) _ decide_eq_true_iff
  · exact gen (fun a b => decide (a.toNat > b.toNat)) _ decide_eq_true_iff
  · exact gen (fun a b => decide (a.toNat ≤ b.toNat)) _ decide_eq_true_iff

/-- Non-vacuity. -/
example : LJump 0xcc#8 (fun a b => a.toNat < b.toNat) ∧ Room (sampleMem (longMem 65537 1)) 4 ∧
    8 ≤ (sampleMem (longMem 65537 1)).sp.toNat :=
  ⟨.ult, ⟨by decide, by decide⟩, by decide⟩

/-- **C17** (branches on zero), stated for the routine like `C17_branch_partial`. -/
theorem C17_branch_zero_partial (s : VM) (sub : Byte) (imm : Word) (R : Int → Prop)
    (hf : LJumpZ sub R) (hr : Room s 2) (hsp4 : 4 ≤ s.sp.toNat) :
    ∃ s', longOps24 s sub imm = .ok (eNOERROR, s') ∧
      ((R (long s 0).toInt → Pops s s' 2 imm) ∧
       (¬R (long s 0).toInt → Pops s s' 2 (s.pc + 4#16))) := by
  obtain ⟨h1, h2⟩ := room_top hr
  have gen : ∀ (f : BitVec 32 → Bool) (P : Prop), (f (long s 0) = true ↔ P) →
      ∃ s', djump1 s imm f = .ok (eNOERROR, s') ∧ ((P → Pops s s' 2 imm) ∧
        (¬P → Pops s s' 2 (s.pc + 4#16))) := by
    intro f P hfP
    unfold djump1
    rw [pop32_eq _ (by omega) h2]
    simp only [Res.ok_bind]
    have e2 : (s.mem s.top ++ s.mem (s.top - 1) : BitVec 32) = long s 0 := rfl
    refine ⟨_, rfl, fun hp => ⟨rfl, ?_, ?_⟩, fun hp => ⟨rfl, ?_, ?_⟩⟩
    · show (s.sp - 2#16 - 2#16).toNat + 2 * 2 = _
      bv_omega
    · show (if f _ = true then imm else _) = _
      rw [e2, if_pos (hfP.2 hp)]
    · show (s.sp - 2#16 - 2#16).toNat + 2 * 2 = _
      bv_omega
    · show (if f _ = true then imm else _) = _
      rw [e2, if_neg (fun h => hp (hfP.1 h))]
  cases hf
  · exact gen (fun a => decide (a.toInt = 0)) _ decide_eq_true_iff
  · exact gen (fun a => decide (a.toInt ≠ 0)) _ decide_eq_true_iff
  · exact gen (fun a => decide (a.toInt < 0)) _ decide_eq_true_iff
  · exact gen (fun a => decide (a.toInt ≥ 0)) _ decide_eq_true_iff
  · exact gen (fun a => decide (a.toInt > 0)) _ decide_eq_true_iff
  · exact gen (fun a => decide (a.toInt ≤ 0)) _ decide_eq_true_iff

/-- Non-vacuity. -/
example : LJumpZ 0xc2#8 (fun a => a < 0) ∧ Room (sampleMem (longMem 65537 1)) 2 ∧
    4 ≤ (sampleMem (longMem 65537 1)).sp.toNat :=
  ⟨.ltz, ⟨by decide, by decide⟩, by decide⟩

/-! ### C18: stack shuffles and conversions -/

/-- **C18** (DUP): the long on top is duplicated. -/
theorem C18_dup (lib : Lib) (hlib : lib.longOps8 = longOps8) (code : List Byte)
    (maxpc : Word) (s : VM) (hi : Insn code maxpc s .longop8 0x5c#8 0) (hr : Room s 2)
    (hroom : s.sp.toNat / 2 + 2 < s.words) (hsz : s.sp.toNat + 4 < 65536) :
    ∃ s', execute lib code maxpc s = .ok (eNOERROR, s') ∧ Loads s s' 0 2 2 ∧
      long s' 0 = long s 0 ∧ long s' 2 = long s 0 := by
  rw [longop_exec hlib hi]
  obtain ⟨h1, h2⟩ := room_top hr
  have ht : s.top = s.sp.toNat / 2 := rfl
  show ∃ s', (do
      let a ← getTos32 { s with pc := s.pc + 2#16 } 0
      let s ← push32 { s with pc := s.pc + 2#16 } a
      pure (eNOERROR, s) : Res (Nat × VM)) = _ ∧ _
  rw [getTos32_eq _ 0 (by show 1 ≤ s.top; omega) (by exact h2)]
  simp only [Res.ok_bind]
  rw [push32_eq _ _ (by exact hroom) (by show s.top + 2 < _; omega)]
  have hn : (s.sp + 2#16 + 2#16).toNat = s.sp.toNat + 4 := by bv_omega
  have hd : (s.sp + 2#16 + 2#16).toNat / 2 = s.top + 2 := by omega
  refine ⟨_, rfl, ⟨rfl, ?_, rfl, ?_⟩, ?_, ?_⟩
  · show (s.sp + 2#16 + 2#16).toNat + 2 * 0 = s.sp.toNat + 2 * 2
    omega
  · intro i hi
    show updW _ (s.top + 2) _ i = _
    rw [updW_other _ _ (by omega)]
    show updW _ (s.top + 1) _ i = _
    rw [updW_other _ _ (by omega)]
  · unfold long opnd
    show (updW _ (s.top + 2) _ ((s.sp + 2#16 + 2#16).toNat / 2 - 0) ++
      updW (updW s.mem (s.top + 1) _) (s.top + 2) _ ((s.sp + 2#16 + 2#16).toNat / 2 - (0 + 1)) : BitVec 32) = _
    rw [hd, show s.top + 2 - 0 = s.top + 2 by omega, show s.top + 2 - (0 + 1) = s.top + 1 by omega,
      updW_same, updW_other _ _ (by omega), updW_same]
    exact split_long _
  · unfold long opnd
    show (updW (updW s.mem (s.top + 1) _) (s.top + 2) _ ((s.sp + 2#16 + 2#16).toNat / 2 - 2) ++
      updW (updW s.mem (s.top + 1) _) (s.top + 2) _ ((s.sp + 2#16 + 2#16).toNat / 2 - (2 + 1)) : BitVec 32) = _
    rw [hd, updW_other _ _ (by omega), updW_other _ _ (by omega), updW_other _ _ (by omega),
      updW_other _ _ (by omega), show s.top + 2 - 2 = s.top - 0 by omega,
      show s.top + 2 - (2 + 1) = s.top - (0 + 1) by omega]
    rfl

/-- Non-vacuity. -/
example : Insn [Op.longop8.toByte, 0x5c] 2#16 (sampleMem (longMem 5 65536)) .longop8 0x5c#8 0 ∧
    Room (sampleMem (longMem 5 65536)) 2 ∧
    (sampleMem (longMem 5 65536)).sp.toNat / 2 + 2 < (sampleMem (longMem 5 65536)).words :=
  ⟨⟨⟨by decide, rfl⟩, fun _ => rfl, fun h => absurd h (by decide)⟩, ⟨by decide, by decide⟩, by decide⟩

/-- **C18** (widening): 16-bit values are sign (0x5e) or zero (0x5f) extended. -/
theorem C18_widen (lib : Lib) (hlib : lib.longOps8 = longOps8) (code : List Byte)
    (maxpc : Word) (s : VM) (sub : Byte) (hs : sub = 0x5e#8 ∨ sub = 0x5f#8)
    (hi : Insn code maxpc s .longop8 sub 0) (hr : Room s 1)
    (hroom : s.sp.toNat / 2 + 1 < s.words) (hsz : s.sp.toNat + 2 < 65536) (hsp : 2 ≤ s.sp.toNat) :
    ∃ s', execute lib code maxpc s = .ok (eNOERROR, s') ∧ Loads s s' 1 2 2 ∧
      (sub = 0x5e#8 → (long s' 0).toInt = (opnd s 0).toInt) ∧
      (sub = 0x5f#8 → (long s' 0).toNat = (opnd s 0).toNat) := by
  rw [longop_exec hlib hi]
  obtain ⟨h1, h2⟩ := room_top hr
  have ht : s.top = s.sp.toNat / 2 := rfl
  have gen : ∀ (g : Word → BitVec 32), ∃ s', (do
      let (w, s) ← ({ s with pc := s.pc + 2#16 } : VM).pop
      let s ← push32 s (g w)
      pure (eNOERROR, s) : Res (Nat × VM)) = .ok (eNOERROR, s') ∧ Loads s s' 1 2 2 ∧
      long s' 0 = g (opnd s 0) := by
    intro g
    rw [VM.pop_eq _ (by exact h2)]
    simp only [Res.ok_bind]
    have htop : ({ s with pc := s.pc + 2#16, sp := s.sp - 2#16 } : VM).top = s.top - 1 :=
      VM.sub2_div _ (by show 1 ≤ s.top; omega)
    rw [push32_eq _ _ (by rw [htop]; show _ < s.words; omega) (by rw [htop]; omega), htop]
    have hn : (s.sp - 2#16 + 2#16 + 2#16).toNat = s.sp.toNat + 2 := by bv_omega
    have hd : (s.sp - 2#16 + 2#16 + 2#16).toNat / 2 = s.top + 1 := by omega
    refine ⟨_, rfl, ⟨rfl, ?_, rfl, ?_⟩, ?_⟩
    · show (s.sp - 2#16 + 2#16 + 2#16).toNat + 2 * 1 = s.sp.toNat + 2 * 2
      omega
    · intro i hi
      show updW _ _ _ i = _
      rw [updW_other _ _ (by omega), updW_other _ _ (by omega)]
    · unfold long opnd
      show (updW (updW s.mem (s.top - 1 + 1) _) (s.top - 1 + 2) _
          ((s.sp - 2#16 + 2#16 + 2#16).toNat / 2 - 0) ++
        updW (updW s.mem (s.top - 1 + 1) _) (s.top - 1 + 2) _
          ((s.sp - 2#16 + 2#16 + 2#16).toNat / 2 - (0 + 1)) : BitVec 32) = _
      rw [hd, show s.top + 1 - 0 = s.top - 1 + 2 by omega,
        show s.top + 1 - (0 + 1) = s.top - 1 + 1 by omega,
        updW_same, updW_other _ _ (by omega), updW_same]
      exact split_long _
  rcases hs with rfl | rfl
  · obtain ⟨s', a1, a2, a3⟩ := gen (fun w => BitVec.ofInt 32 (signExtend16 w))
    refine ⟨s', a1, a2, fun _ => ?_, fun h => absurd h (by decide)⟩
    have hb1 := BitVec.le_toInt (opnd s 0)
    have hb2 := BitVec.toInt_lt (x := opnd s 0)
    rw [a3]
    exact (signed_fits (r := (opnd s 0).toInt) (by unfold Fits32; omega)).2
  · obtain ⟨s', a1, a2, a3⟩ := gen (fun w => w.zeroExtend 32)
    refine ⟨s', a1, a2, fun h => absurd h (by decide), fun _ => ?_⟩
    have := (opnd s 0).isLt
    rw [a3, BitVec.toNat_setWidth]
    omega

/-- Non-vacuity. -/
example : Insn [Op.longop8.toByte, 0x5e] 2#16 (sampleVM 0#16) .longop8 0x5e#8 0 ∧
    Room (sampleVM 0#16) 1 ∧ (sampleVM 0#16).sp.toNat / 2 + 1 < (sampleVM 0#16).words :=
  ⟨⟨⟨by decide, rfl⟩, fun _ => rfl, fun h => absurd h (by decide)⟩, ⟨by decide, by decide⟩, by decide⟩

/-- **C18** (narrowing): conversion to 16 bits keeps the value modulo 2^16. -/
theorem C18_narrow (lib : Lib) (hlib : lib.longOps8 = longOps8) (code : List Byte)
    (maxpc : Word) (s : VM) (hi : Insn code maxpc s .longop8 0x60#8 0) (hr : Room s 2) :
    ∃ s', execute lib code maxpc s = .ok (eNOERROR, s') ∧ Loads s s' 2 1 2 ∧
      (opnd s' 0).toNat = (long s 0).toNat % 65536 := by
  rw [longop_exec hlib hi]
  obtain ⟨h1, h2⟩ := room_top hr
  have ht : s.top = s.sp.toNat / 2 := rfl
  have hsp := s.sp.isLt
  show ∃ s', (do
      let (v, s) ← pop32 { s with pc := s.pc + 2#16 }
      let s ← s.push (v.extractLsb' 0 16)
      pure (eNOERROR, s) : Res (Nat × VM)) = _ ∧ _
  rw [pop32_eq _ (by show 1 ≤ s.top; omega) (by exact h2)]
  simp only [Res.ok_bind]
  refine ⟨{ s with pc := s.pc + 2#16, sp := s.sp - 2#16,
                   mem := updW s.mem (s.top - 1) ((long s 0).extractLsb' 0 16) }, ?_,
    ⟨rfl, ?_, rfl, ?_⟩, ?_⟩
  · have e : s.sp - 2#16 - 2#16 + 2#16 = s.sp - 2#16 := by bv_omega
    unfold VM.push
    simp only [e]
    have : ({ s with pc := s.pc + 2#16, sp := s.sp - 2#16 } : VM).top = s.top - 1 :=
      VM.sub2_div _ (by show 1 ≤ s.top; omega)
    rw [this, VM.wr_eq _ _ (by show _ < s.words; omega)]
    rfl
  · show (s.sp - 2#16).toNat + 2 * 2 = s.sp.toNat + 2 * 1
    bv_omega
  · intro i hi
    exact updW_other _ _ (by omega)
  · unfold opnd
    show (updW _ _ _ ((s.sp - 2#16).toNat / 2 - 0)).toNat = _
    rw [show (s.sp - 2#16).toNat / 2 - 0 = s.top - 1 by
      rw [VM.sub2_div _ (by show 1 ≤ s.top; omega)]; omega, updW_same]
    rw [BitVec.extractLsb'_toNat]
    rfl

/-- Non-vacuity. -/
example : Insn [Op.longop8.toByte, 0x60] 2#16 (sampleVM 0#16) .longop8 0x60#8 0 ∧
    Room (sampleVM 0#16) 2 :=
  ⟨⟨⟨by decide, rfl⟩, fun _ => rfl, fun h => absurd h (by decide)⟩, ⟨by decide, by decide⟩⟩

/-- **C18 fails** for XCHG: exchanging 1 and 2 leaves neither of them in place. -/
theorem C18_violation_xchg (lib : Lib) (hlib : lib.longOps8 = longOps8) :
    ∃ (code : List Byte) (maxpc : Word) (s s' : VM), Insn code maxpc s .longop8 0x5d#8 0 ∧
      Room s 4 ∧ (long s 2).toInt = 1 ∧ (long s 0).toInt = 2 ∧
      execute lib code maxpc s = .ok (eNOERROR, s') ∧
      (long s' 0).toInt ≠ 1 ∧ (long s' 2).toInt ≠ 2 := by
  have hi : Insn [Op.longop8.toByte, 0x5d] 2#16 (sampleMem (longMem 1 2)) .longop8 0x5d#8 0 :=
    ⟨⟨by decide, rfl⟩, fun _ => rfl, fun h => absurd h (by decide)⟩
  exact ⟨_, _, _, _, hi, ⟨by decide, by decide⟩, by decide, by decide,
    (longop_exec hlib hi).trans rfl, by decide, by decide⟩

end Pas
