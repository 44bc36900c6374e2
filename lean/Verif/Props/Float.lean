import Verif.Lemmas.Float
import Verif.Props.Long

/-! Property C63: REAL arithmetic. -/
namespace Pas.FloatOps
open Spec Src

theorem float_exec {lib : Lib} {fpu : Fpu} (hlib : lib.floatOps = floatOps fpu) {code : List Byte} {maxpc : Word}
    {s : VM} {sub : Byte} (hi : Insn code maxpc s .float sub 0) :
    execute lib code maxpc s = floatOps fpu { s with pc := s.pc + 2#16 } sub := by
  rw [execute_16 (at_of_next hi.next) (by decide) (by decide) (hi.arg8 (by decide)), pexec16, hlib]

theorem fop_7 {c : Nat} (hc : c < 64) (i1 i2 : Bool) : (fop c i1 i2).getLsbD 7 = i2 := by
  have : ∀ c : Fin 64, ∀ i1 i2 : Bool, (fop c.val i1 i2).getLsbD 7 = i2 := by decide +kernel
  exact this ⟨c, hc⟩ i1 i2

theorem fop_6 {c : Nat} (hc : c < 64) (i1 i2 : Bool) : (fop c i1 i2).getLsbD 6 = i1 := by
  have : ∀ c : Fin 64, ∀ i1 i2 : Bool, (fop c.val i1 i2).getLsbD 6 = i1 := by decide +kernel
  exact this ⟨c, hc⟩ i1 i2

/-- The host's operations with two operands, `include/pas_fpops.h`. -/
inductive FArith (fpu : Fpu) : Nat → (Real → Real → Real) → Prop where
  | add : FArith fpu 0x04 fpu.add
  | sub : FArith fpu 0x05 fpu.sub
  | mul : FArith fpu 0x06 fpu.mul
  | div : FArith fpu 0x07 fpu.div

/-- The host's operations with one operand. -/
inductive FFun (fpu : Fpu) : Nat → (Real → Real) → Prop where
  | sqr : FFun fpu 0x12 (fun x => fpu.mul x x)
  | sqrt : FFun fpu 0x13 fpu.sqrt
  | sin : FFun fpu 0x14 fpu.sin
  | cos : FFun fpu 0x15 fpu.cos
  | atan : FFun fpu 0x16 fpu.atan
  | ln : FFun fpu 0x17 fpu.log
  | exp : FFun fpu 0x18 fpu.exp

theorem arith2_ok {fpu : Fpu} {c : Nat} {f : Real → Real → Real} (hf : FArith fpu c f) (s : VM) (i1 i2 : Bool) :
    c < 64 ∧ floatOps fpu s (fop c i1 i2) = arith2 s (fop c i1 i2) f := by
  cases hf <;> refine ⟨by decide, ?_⟩ <;> cases i1 <;> cases i2 <;> rfl

theorem fun_ok {fpu : Fpu} {c : Nat} {f : Real → Real} (hf : FFun fpu c f) (s : VM) (i1 i2 : Bool) :
    c < 64 ∧ floatOps fpu s (fop c i1 i2) = arith1 s (fop c i1 i2) f := by
  cases hf <;> refine ⟨by decide, ?_⟩ <;> cases i1 <;> cases i2 <;> rfl

theorem arith1_ok {s : VM} {c : Nat} {i1 i2 : Bool} {f : Real → Real} (hc : c < 64)
    (h1 : Room s (argWords i1 + 1)) (h2 : RoomFor s 3) :
    ∃ s', arith1 { s with pc := s.pc + 2#16 } (fop c i1 i2) f = .ok (eNOERROR, s') ∧
      Loads s s' (argWords i1) 4 2 ∧ real s' 0 = f (argOf s 0 i1) := by
  obtain ⟨hr1, hr2⟩ := room_top h1
  have h3 := h2.1
  have hw := h2.2
  have ht : s.top = s.sp.toNat / 2 := rfl
  have ha : 1 ≤ argWords i1 := by cases i1 <;> decide
  obtain ⟨s', e, l, v⟩ := pushF_real (s := s) (n := argWords i1) (v := f (argOf s 0 i1)) (by omega) (by omega) hw
  refine ⟨s', ?_, l, v⟩
  unfold arith1
  rw [fop_6 hc]
  have g := getArg_cut (s := { s with pc := s.pc + 2#16 }) (n := 0) (int := i1)
    (by show _ ≤ s.top; omega) (by exact hr2)
  rw [cut_zero, Nat.zero_add] at g
  rw [g]
  simp only [Res.ok_bind]
  rw [show argOf { s with pc := s.pc + 2#16 } 0 i1 = argOf s 0 i1 from rfl, e]
  rfl

/-- C63: addition, subtraction, multiplication and division of REALs apply the host's operation to
the operand below and the operand on top, in this order, whichever of them are integers; integers
are converted exactly; the result replaces the operands and nothing else changes. -/
theorem C63_arith (lib : Lib) (fpu : Fpu) (hlib : lib.floatOps = floatOps fpu) (code : List Byte)
    (maxpc : Word) (s : VM) (c : Nat) (f : Real → Real → Real) (hf : FArith fpu c f) (i1 i2 : Bool)
    (hi : Insn code maxpc s .float (fop c i1 i2) 0)
    (h1 : Room s (argWords i2 + argWords i1 + 1)) (h2 : RoomFor s 2) :
    ∃ a b s', IsArg s (argWords i2) i1 a ∧ IsArg s 0 i2 b ∧
      execute lib code maxpc s = .ok (eNOERROR, s') ∧ Loads s s' (argWords i2 + argWords i1) 4 2 ∧
      real s' 0 = f a b := by
  rw [float_exec hlib hi]
  obtain ⟨hc, e⟩ := arith2_ok hf { s with pc := s.pc + 2#16 } i1 i2
  rw [e]
  obtain ⟨hr1, hr2⟩ := room_top h1
  have h3 := h2.1
  have hw := h2.2
  have ht : s.top = s.sp.toNat / 2 := rfl
  have ha : 1 ≤ argWords i1 := by cases i1 <;> decide
  have hb : 1 ≤ argWords i2 := by cases i2 <;> decide
  obtain ⟨s', e, l, v⟩ := pushF_real (s := s) (n := argWords i2 + argWords i1)
    (v := f (argOf s (argWords i2) i1) (argOf s 0 i2)) (by omega) (by omega) hw
  refine ⟨argOf s (argWords i2) i1, argOf s 0 i2, s', isArg_argOf _ _ _, isArg_argOf _ _ _, ?_, l, v⟩
  unfold arith2
  rw [get2_eq (by rw [fop_6 hc, fop_7 hc]; show _ ≤ s.top; omega) (by exact hr2), fop_6 hc, fop_7 hc]
  simp only [Res.ok_bind]
  rw [show argOf { s with pc := s.pc + 2#16 } 0 i2 = argOf s 0 i2 from rfl,
    show argOf { s with pc := s.pc + 2#16 } (argWords i2) i1 = argOf s (argWords i2) i1 from rfl, e]
  rfl

/-- C63: SQR, SQRT, SIN, COS, ARCTAN, LN and EXP apply the host's function to the operand, an
integer being converted exactly first. -/
theorem C63_functions (lib : Lib) (fpu : Fpu) (hlib : lib.floatOps = floatOps fpu) (code : List Byte)
    (maxpc : Word) (s : VM) (c : Nat) (f : Real → Real) (hf : FFun fpu c f) (i1 i2 : Bool)
    (hi : Insn code maxpc s .float (fop c i1 i2) 0) (h1 : Room s (argWords i1 + 1)) (h2 : RoomFor s 3) :
    ∃ a s', IsArg s 0 i1 a ∧ execute lib code maxpc s = .ok (eNOERROR, s') ∧
      Loads s s' (argWords i1) 4 2 ∧ real s' 0 = f a := by
  rw [float_exec hlib hi]
  obtain ⟨hc, e⟩ := fun_ok hf { s with pc := s.pc + 2#16 } i1 i2
  rw [e]
  obtain ⟨s', h⟩ := arith1_ok (s := s) (f := f) (i2 := i2) hc h1 h2
  exact ⟨_, s', isArg_argOf _ _ _, h⟩

/-- C63: negation and absolute value are exact. -/
theorem C63_exact (lib : Lib) (fpu : Fpu) (hlib : lib.floatOps = floatOps fpu) (code : List Byte)
    (maxpc : Word) (s : VM) (c : Nat) (f : Int → Int) (hf : FExact c f) (i1 i2 : Bool)
    (hi : Insn code maxpc s .float (fop c i1 i2) 0) (h1 : Room s (argWords i1 + 1)) (h2 : RoomFor s 3)
    (v : Int) (hv : ArgValue s 0 i1 v) :
    ∃ s', execute lib code maxpc s = .ok (eNOERROR, s') ∧ Loads s s' (argWords i1) 4 2 ∧
      RealValue (real s' 0) (f v) := by
  rw [float_exec hlib hi]
  have hd := argValue_argOf hv
  cases hf with
  | neg =>
    have e : floatOps fpu { s with pc := s.pc + 2#16 } (fop 0x10 i1 i2) =
        arith1 { s with pc := s.pc + 2#16 } (fop 0x10 i1 i2) fneg := by
      cases i1 <;> cases i2 <;> rfl
    rw [e]
    obtain ⟨s', a, l, r⟩ := arith1_ok (s := s) (f := fneg) (c := 0x10) (i2 := i2) (by decide) h1 h2
    exact ⟨s', a, l, by rw [r]; exact denotes_neg hd⟩
  | abs =>
    have e : floatOps fpu { s with pc := s.pc + 2#16 } (fop 0x11 i1 i2) =
        arith1 { s with pc := s.pc + 2#16 } (fop 0x11 i1 i2) fabs := by
      cases i1 <;> cases i2 <;> rfl
    rw [e]
    obtain ⟨s', a, l, r⟩ := arith1_ok (s := s) (f := fabs) (c := 0x11) (i2 := i2) (by decide) h1 h2
    exact ⟨s', a, l, by rw [r]; exact denotes_abs hd⟩

theorem compare2_ok {s : VM} {c : Nat} {i1 i2 : Bool} {f : Real → Real → Bool} (hc : c < 64)
    (h1 : Room s (argWords i2 + argWords i1 + 1)) (hw : s.words ≤ 32768) :
    ∃ s', compare2 { s with pc := s.pc + 2#16 } (fop c i1 i2) f = .ok (eNOERROR, s') ∧
      Loads s s' (argWords i2 + argWords i1) 1 2 ∧
      opnd s' 0 = pasBool (f (argOf s (argWords i2) i1) (argOf s 0 i2)) := by
  obtain ⟨hr1, hr2⟩ := room_top h1
  have ht : s.top = s.sp.toNat / 2 := rfl
  have ha : 1 ≤ argWords i1 := by cases i1 <;> decide
  have hb : 1 ≤ argWords i2 := by cases i2 <;> decide
  obtain ⟨s', e, l, v⟩ := push_word (s := s) (n := argWords i2 + argWords i1)
    (w := pasBool (f (argOf s (argWords i2) i1) (argOf s 0 i2))) (by omega) (by omega) hw
  refine ⟨s', ?_, l, v⟩
  unfold compare2
  rw [get2_eq (by rw [fop_6 hc, fop_7 hc]; show _ ≤ s.top; omega) (by exact hr2), fop_6 hc, fop_7 hc]
  simp only [Res.ok_bind]
  rw [show argOf { s with pc := s.pc + 2#16 } 0 i2 = argOf s 0 i2 from rfl,
    show argOf { s with pc := s.pc + 2#16 } (argWords i2) i1 = argOf s (argWords i2) i1 from rfl, e]
  rfl

/-- C63: the six comparisons of two numbers, each a REAL or an integer, compare their exact values
and leave TRUE (-1) or FALSE (0). -/
theorem C63_compare (lib : Lib) (fpu : Fpu) (hlib : lib.floatOps = floatOps fpu) (code : List Byte)
    (maxpc : Word) (s : VM) (c : Nat) (f : Int → Int → Bool) (hf : FCompare c f) (i1 i2 : Bool)
    (hi : Insn code maxpc s .float (fop c i1 i2) 0)
    (h1 : Room s (argWords i2 + argWords i1 + 1)) (hw : s.words ≤ 32768)
    (v w : Int) (hv : ArgValue s (argWords i2) i1 v) (hw' : ArgValue s 0 i2 w) :
    ∃ s', execute lib code maxpc s = .ok (eNOERROR, s') ∧
      Loads s s' (argWords i2 + argWords i1) 1 2 ∧
      opnd s' 0 = if f v w then 0xffff#16 else 0#16 := by
  rw [float_exec hlib hi]
  obtain ⟨_, n1, q1⟩ := denotes_parts (argValue_argOf hv)
  obtain ⟨_, n2, q2⟩ := denotes_parts (argValue_argOf hw')
  cases hf
  · have e : floatOps fpu { s with pc := s.pc + 2#16 } (fop 0x0a i1 i2) =
        compare2 { s with pc := s.pc + 2#16 } (fop 0x0a i1 i2) feq := by
      cases i1 <;> cases i2 <;> rfl
    rw [e]
    obtain ⟨s', a, l, r⟩ := compare2_ok (f := feq) (c := 0x0a) (by decide) h1 hw
    refine ⟨s', a, l, ?_⟩
    rw [r, feq, n1, n2, q1, q2]
    rfl
  · have e : floatOps fpu { s with pc := s.pc + 2#16 } (fop 0x0b i1 i2) =
        compare2 { s with pc := s.pc + 2#16 } (fop 0x0b i1 i2) (fun a b => !feq a b) := by
      cases i1 <;> cases i2 <;> rfl
    rw [e]
    obtain ⟨s', a, l, r⟩ := compare2_ok (f := fun a b => !feq a b) (c := 0x0b) (by decide) h1 hw
    refine ⟨s', a, l, ?_⟩
    rw [r, feq, n1, n2, q1, q2]
    by_cases h : v = w <;> simp [pasBool, h]
  · have e : floatOps fpu { s with pc := s.pc + 2#16 } (fop 0x0c i1 i2) =
        compare2 { s with pc := s.pc + 2#16 } (fop 0x0c i1 i2) flt := by
      cases i1 <;> cases i2 <;> rfl
    rw [e]
    obtain ⟨s', a, l, r⟩ := compare2_ok (f := flt) (c := 0x0c) (by decide) h1 hw
    refine ⟨s', a, l, ?_⟩
    rw [r, flt, n1, n2, q1, q2]
    rfl
  · have e : floatOps fpu { s with pc := s.pc + 2#16 } (fop 0x0d i1 i2) =
        compare2 { s with pc := s.pc + 2#16 } (fop 0x0d i1 i2) (fun a b => fle b a) := by
      cases i1 <;> cases i2 <;> rfl
    rw [e]
    obtain ⟨s', a, l, r⟩ := compare2_ok (f := fun a b => fle b a) (c := 0x0d) (by decide) h1 hw
    refine ⟨s', a, l, ?_⟩
    rw [r, fle, n1, n2, q1, q2]
    rfl
  · have e : floatOps fpu { s with pc := s.pc + 2#16 } (fop 0x0e i1 i2) =
        compare2 { s with pc := s.pc + 2#16 } (fop 0x0e i1 i2) (fun a b => flt b a) := by
      cases i1 <;> cases i2 <;> rfl
    rw [e]
    obtain ⟨s', a, l, r⟩ := compare2_ok (f := fun a b => flt b a) (c := 0x0e) (by decide) h1 hw
    refine ⟨s', a, l, ?_⟩
    rw [r, flt, n1, n2, q1, q2]
    rfl
  · have e : floatOps fpu { s with pc := s.pc + 2#16 } (fop 0x0f i1 i2) =
        compare2 { s with pc := s.pc + 2#16 } (fop 0x0f i1 i2) fle := by
      cases i1 <;> cases i2 <;> rfl
    rw [e]
    obtain ⟨s', a, l, r⟩ := compare2_ok (f := fle) (c := 0x0f) (by decide) h1 hw
    refine ⟨s', a, l, ?_⟩
    rw [r, fle, n1, n2, q1, q2]
    rfl

/-- The infinities continue the scale. -/
def big : Int := ((2 ^ 52 * 2 ^ 2046 : Nat) : Int)

theorem finite_bound {x : Real} {v : Int} (h : RealValue x v) :
    -big < v ∧ v < big := by
  obtain ⟨neg, e, f, he, hf, _, hv⟩ := h
  have hb : (if e = 0 then (f : Int) else ((2 ^ 52 + f : Nat) : Int) * 2 ^ (e - 1)) < big ∧
      0 ≤ (if e = 0 then (f : Int) else ((2 ^ 52 + f : Nat) : Int) * 2 ^ (e - 1)) := by
    have hn : (if e = 0 then f else (2 ^ 52 + f) * 2 ^ (e - 1)) < 2 ^ 52 * 2 ^ 2046 := by
      split
      · exact Nat.lt_of_lt_of_le hf (Nat.le_mul_of_pos_right _ (Nat.two_pow_pos _))
      · calc (2 ^ 52 + f) * 2 ^ (e - 1) < 2 ^ 53 * 2 ^ (e - 1) :=
              Nat.mul_lt_mul_of_pos_right (by omega) (Nat.two_pow_pos _)
          _ ≤ 2 ^ 53 * 2 ^ 2045 := Nat.mul_le_mul_left _ (Nat.pow_le_pow_right (by decide) (by omega))
          _ = 2 ^ 52 * 2 ^ 2046 := by rw [← Nat.pow_add, ← Nat.pow_add]
    have hi : (if e = 0 then (f : Int) else ((2 ^ 52 + f : Nat) : Int) * 2 ^ (e - 1)) =
        ((if e = 0 then f else (2 ^ 52 + f) * 2 ^ (e - 1) : Nat) : Int) := by
      split
      · rfl
      · rw [Int.natCast_mul, Int.natCast_pow]; rfl
    rw [hi]
    refine ⟨?_, Int.natCast_nonneg _⟩
    unfold big
    exact Int.ofNat_lt.mpr hn
  generalize (if e = 0 then (f : Int) else ((2 ^ 52 + f : Nat) : Int) * 2 ^ (e - 1)) = m at hv hb
  cases neg <;> simp at hv <;> omega

/-- What the comparisons look at. -/
theorem num_parts {x : Real} {n : Num} (h : Represents x n) :
    (n = .nan ∧ isNan x = true) ∨ (isNan x = false ∧
      ((∃ v, n = .num v ∧ scaled x = v ∧ -big < v ∧ v < big) ∨
        (n = .high ∧ scaled x = big) ∨ (n = .low ∧ scaled x = -big))) := by
  cases n with
  | num v =>
    obtain ⟨_, h1, h2⟩ := denotes_parts h
    exact Or.inr ⟨h1, Or.inl ⟨v, rfl, h2, finite_bound h⟩⟩
  | high =>
    have : x = 0x7ff0000000000000#64 := h
    subst this
    exact Or.inr ⟨by decide +kernel, Or.inr (Or.inl ⟨rfl, by decide +kernel⟩)⟩
  | low =>
    have : x = 0xfff0000000000000#64 := h
    subst this
    exact Or.inr ⟨by decide +kernel, Or.inr (Or.inr ⟨rfl, by decide +kernel⟩)⟩
  | nan =>
    obtain ⟨neg, f, h0, h1, hx⟩ := h
    refine Or.inl ⟨rfl, ?_⟩
    have h2 : expo x = 2047 := by unfold expo; rw [hx]; cases neg <;> simp <;> omega
    have h3 : frac x = f := by unfold frac; rw [hx]; cases neg <;> simp <;> omega
    unfold isNan
    rw [h2, h3]
    simp
    omega

theorem compare_nums {a b : Real} {m n : Num} (ha : Represents a m) (hb : Represents b n) :
    feq a b = m.eq n ∧ flt a b = m.lt n ∧ fle a b = (m.lt n || m.eq n) := by
  have hp : 0 < big := by decide +kernel
  unfold feq flt fle
  rcases num_parts ha with ⟨rfl, e⟩ | ⟨e, ⟨v, rfl, q, _⟩ | ⟨rfl, q⟩ | ⟨rfl, q⟩⟩ <;>
    rcases num_parts hb with ⟨rfl, e'⟩ | ⟨e', ⟨w, rfl, q', _⟩ | ⟨rfl, q'⟩ | ⟨rfl, q'⟩⟩ <;>
    simp [*, Num.eq, Num.lt] <;> first | omega | (rw [Bool.eq_iff_iff]; simp; omega)

theorem argNum_argOf {s : VM} {k : Nat} {int : Bool} {n : Num} (h : ArgNum s k int n) :
    Represents (argOf s k int) n := by
  cases int with
  | true =>
    have h' : n = .num ((opnd s k).toInt * 2 ^ 1074) := h
    subst h'
    exact argValue_argOf (int := true) rfl
  | false => exact h

/-- C63: with infinities and values that are not numbers the six comparisons are those of IEEE 754:
an infinity equals itself and lies outside all numbers; every comparison with not-a-number is FALSE
except `<>`, which is TRUE. -/
theorem C63_compare_special (lib : Lib) (fpu : Fpu) (hlib : lib.floatOps = floatOps fpu) (code : List Byte)
    (maxpc : Word) (s : VM) (c : Nat) (f : Num → Num → Bool) (hf : FOrder c f) (i1 i2 : Bool)
    (hi : Insn code maxpc s .float (fop c i1 i2) 0)
    (h1 : Room s (argWords i2 + argWords i1 + 1)) (hw : s.words ≤ 32768)
    (m n : Num) (hm : ArgNum s (argWords i2) i1 m) (hn : ArgNum s 0 i2 n) :
    ∃ s', execute lib code maxpc s = .ok (eNOERROR, s') ∧
      Loads s s' (argWords i2 + argWords i1) 1 2 ∧
      opnd s' 0 = if f m n then 0xffff#16 else 0#16 := by
  rw [float_exec hlib hi]
  obtain ⟨e1, e2, e3⟩ := compare_nums (argNum_argOf hm) (argNum_argOf hn)
  obtain ⟨e1', e2', e3'⟩ := compare_nums (argNum_argOf hn) (argNum_argOf hm)
  have he : n.eq m = m.eq n := by
    cases m <;> cases n <;> simp [Num.eq, eq_comm]
  have key : ∀ g : Real → Real → Bool, c < 64 →
      floatOps fpu { s with pc := s.pc + 2#16 } (fop c i1 i2) =
        compare2 { s with pc := s.pc + 2#16 } (fop c i1 i2) g →
      g (argOf s (argWords i2) i1) (argOf s 0 i2) = f m n →
      ∃ s', floatOps fpu { s with pc := s.pc + 2#16 } (fop c i1 i2) = .ok (eNOERROR, s') ∧
        Loads s s' (argWords i2 + argWords i1) 1 2 ∧
        opnd s' 0 = if f m n then 0xffff#16 else 0#16 := by
    intro g hc e hg
    obtain ⟨s', a, l, r⟩ := compare2_ok (f := g) (c := c) hc h1 hw
    refine ⟨s', e.trans a, l, ?_⟩
    rw [r, hg]
    rfl
  cases hf
  · exact key feq (by decide) (by cases i1 <;> cases i2 <;> rfl) e1
  · exact key (fun a b => !feq a b) (by decide) (by cases i1 <;> cases i2 <;> rfl) (by rw [e1])
  · exact key flt (by decide) (by cases i1 <;> cases i2 <;> rfl) e2
  · exact key (fun a b => fle b a) (by decide) (by cases i1 <;> cases i2 <;> rfl) (by rw [e3', he])
  · exact key (fun a b => flt b a) (by decide) (by cases i1 <;> cases i2 <;> rfl) e2'
  · exact key fle (by decide) (by cases i1 <;> cases i2 <;> rfl) e3

/-- C63: FLOAT replaces an integer by the REAL of the same value, for all integers. -/
theorem C63_float (lib : Lib) (fpu : Fpu) (hlib : lib.floatOps = floatOps fpu) (code : List Byte)
    (maxpc : Word) (s : VM) (i1 i2 : Bool) (hi : Insn code maxpc s .float (fop 0x01 i1 i2) 0)
    (h1 : Room s 2) (h2 : RoomFor s 3) :
    ∃ s', execute lib code maxpc s = .ok (eNOERROR, s') ∧ Loads s s' 1 4 2 ∧
      RealValue (real s' 0) ((opnd s 0).toInt * 2 ^ 1074) := by
  rw [float_exec hlib hi]
  obtain ⟨hr1, hr2⟩ := room_top h1
  have h3 := h2.1
  have hw := h2.2
  have ht : s.top = s.sp.toNat / 2 := rfl
  obtain ⟨s', e, l, v⟩ := pushF_real (s := s) (n := 1) (v := ofInt (opnd s 0).toInt) (by omega) (by omega) hw
  refine ⟨s', ?_, l, by rw [v]; exact denotes_word _⟩
  have g := pop_cut (s := { s with pc := s.pc + 2#16 }) (n := 0) (by exact Nat.zero_le _) (by exact hr2)
  rw [cut_zero] at g
  have e1 : floatOps fpu { s with pc := s.pc + 2#16 } (fop 0x01 i1 i2) = (do
      let (i, s) ← VM.pop { s with pc := s.pc + 2#16 }
      let s ← pushF s (ofInt i.toInt)
      pure (eNOERROR, s)) := by cases i1 <;> cases i2 <;> rfl
  rw [e1, g]
  simp only [Res.ok_bind]
  rw [show opnd { s with pc := s.pc + 2#16 } 0 = opnd s 0 from rfl, e]
  rfl

theorem trunc_exec {fpu : Fpu} {s : VM} {c : Nat} (hc : c = 2 ∨ c = 3) {i1 i2 : Bool}
    (h1 : Room s (argWords i1 + 1)) :
    floatOps fpu { s with pc := s.pc + 2#16 } (fop c i1 i2) = (do
      let w ← toShort (argOf s 0 i1)
      let s ← (cut { s with pc := s.pc + 2#16 } (argWords i1)).push w
      pure (eNOERROR, s)) := by
  obtain ⟨hr1, hr2⟩ := room_top h1
  have hc' : c < 64 := by omega
  have e1 : floatOps fpu { s with pc := s.pc + 2#16 } (fop c i1 i2) = (do
      let (a, s) ← getArg { s with pc := s.pc + 2#16 } ((fop c i1 i2).getLsbD 6)
      let w ← toShort a
      let s ← s.push w
      pure (eNOERROR, s)) := by
    rcases hc with rfl | rfl <;> cases i1 <;> cases i2 <;> rfl
  rw [e1, fop_6 hc']
  have g := getArg_cut (s := { s with pc := s.pc + 2#16 }) (n := 0) (int := i1)
    (by show _ ≤ s.top; omega) (by exact hr2)
  rw [cut_zero, Nat.zero_add] at g
  rw [g]
  rfl

/-- C63 (partial: results outside the integers are undefined, and ROUND does not round, see below):
TRUNC leaves the integer part of its operand. -/
theorem C63_trunc_partial (lib : Lib) (fpu : Fpu) (hlib : lib.floatOps = floatOps fpu) (code : List Byte)
    (maxpc : Word) (s : VM) (i1 i2 : Bool) (hi : Insn code maxpc s .float (fop 0x02 i1 i2) 0)
    (h1 : Room s (argWords i1 + 1)) (hw : s.words ≤ 32768) (v : Int) (hv : ArgValue s 0 i1 v)
    (hb : -32768 ≤ v.tdiv (2 ^ 1074) ∧ v.tdiv (2 ^ 1074) ≤ 32767) :
    ∃ s', execute lib code maxpc s = .ok (eNOERROR, s') ∧ Loads s s' (argWords i1) 1 2 ∧
      (opnd s' 0).toInt = v.tdiv (2 ^ 1074) := by
  rw [float_exec hlib hi, trunc_exec (Or.inl rfl) h1]
  obtain ⟨n0, _, q⟩ := denotes_parts (argValue_argOf hv)
  obtain ⟨hr1, hr2⟩ := room_top h1
  have ha : 1 ≤ argWords i1 := by cases i1 <;> decide
  have ht : toShort (argOf s 0 i1) = .ok (BitVec.ofInt 16 (v.tdiv (2 ^ 1074))) := by
    unfold toShort
    rw [if_neg n0, q]
    exact if_pos hb
  rw [ht]
  simp only [Res.ok_bind]
  generalize v.tdiv (2 ^ 1074) = r at *
  obtain ⟨s', e, l, w⟩ := push_word (s := s) (n := argWords i1) (w := BitVec.ofInt 16 r) (by omega) (by omega) hw
  rw [e]
  refine ⟨s', rfl, l, ?_⟩
  rw [w, BitVec.toInt_ofInt, Int.bmod_def]
  simp
  omega

/-- C63 is violated: ROUND does exactly what TRUNC does, whatever the operand. -/
theorem C63_violation_round (lib : Lib) (fpu : Fpu) (hlib : lib.floatOps = floatOps fpu)
    (code code' : List Byte) (maxpc : Word) (s : VM) (i1 i2 : Bool)
    (hi : Insn code maxpc s .float (fop 0x02 i1 i2) 0) (hi' : Insn code' maxpc s .float (fop 0x03 i1 i2) 0)
    (h1 : Room s (argWords i1 + 1)) : execute lib code' maxpc s = execute lib code maxpc s := by
  rw [float_exec hlib hi, float_exec hlib hi', trunc_exec (Or.inl rfl) h1, trunc_exec (Or.inr rfl) h1]

/-- C63 is violated: TRUNC of a number that is not an integer value of the machine is undefined. -/
theorem C63_violation_trunc (lib : Lib) (fpu : Fpu) (hlib : lib.floatOps = floatOps fpu) (code : List Byte)
    (maxpc : Word) (s : VM) (i1 i2 : Bool) (hi : Insn code maxpc s .float (fop 0x02 i1 i2) 0)
    (h1 : Room s (argWords i1 + 1)) (v : Int) (hv : ArgValue s 0 i1 v)
    (hb : ¬(-32768 ≤ v.tdiv (2 ^ 1074) ∧ v.tdiv (2 ^ 1074) ≤ 32767)) :
    execute lib code maxpc s = .ub := by
  rw [float_exec hlib hi, trunc_exec (Or.inl rfl) h1]
  obtain ⟨n0, _, q⟩ := denotes_parts (argValue_argOf hv)
  have ht : toShort (argOf s 0 i1) = .ub := by
    unfold toShort
    rw [if_neg n0, q]
    exact if_neg hb
  rw [ht]
  rfl

/-- C63: the operations that do not exist are reported and leave the stack alone. -/
theorem C63_illegal (lib : Lib) (fpu : Fpu) (hlib : lib.floatOps = floatOps fpu) (code : List Byte)
    (maxpc : Word) (s : VM) (c : Nat) (hc : c = 0 ∨ c = 8 ∨ c = 9 ∨ (0x19 ≤ c ∧ c < 64)) (i1 i2 : Bool)
    (hi : Insn code maxpc s .float (fop c i1 i2) 0) :
    execute lib code maxpc s = .ok (eBADFPOPCODE, { s with pc := s.pc + 2#16 }) := by
  rw [float_exec hlib hi]
  have hm : (fop c i1 i2).toNat % 64 = c := by
    have : ∀ c : Fin 64, ∀ i1 i2 : Bool, (fop c.val i1 i2).toNat % 64 = c.val := by decide +kernel
    exact this ⟨c, by omega⟩ i1 i2
  unfold floatOps
  rw [hm]
  rcases hc with rfl | rfl | rfl | ⟨h1, h2⟩
  · rfl
  · rfl
  · rfl
  · split <;> first | omega | rfl

/-! ### Cases that meet the hypotheses -/

/-- A host (its operations do not matter here). -/
def noFpu : Fpu := ⟨fun a _ => a, fun a _ => a, fun a _ => a, fun a _ => a, id, id, id, id, id, id⟩

def noLib : Lib :=
  ⟨floatOps noFpu, fun s _ => .ok (0, s), fun s _ => .ok (0, s), fun s _ => .ok (0, s), fun s _ _ => .ok (0, s),
    fun s _ => .ok (0, s), fun s _ => .ok (0, s)⟩

/-- The REAL 2.75 on top of the stack, the integer -3 below. -/
def realMem : Nat → Word := fun i => if i = 20 then 0x4006#16 else if i = 16 then 0xfffd#16 else 0

theorem denotes_275 : RealValue 0x4006000000000000#64 (11 * 2 ^ 1072) := by
  refine ⟨false, 1024, 0x6000000000000, by decide, by decide, by decide, ?_⟩
  rw [if_neg (by decide), if_neg (by decide), Int.one_mul,
    show ((2 ^ 52 + 0x6000000000000 : Nat) : Int) = 11 * 2 ^ 49 from by decide, Int.mul_assoc, ← Int.pow_add]

/-- -3 < 2.75: the integer below is converted. -/
example : noLib.floatOps = floatOps noFpu ∧ FCompare 0x0c (fun a b => decide (a < b)) ∧
    Insn [Op.float.toByte, 0x4c] 2#16 (sampleMem realMem) .float (fop 0x0c true false) 0 ∧
    Room (sampleMem realMem) 6 ∧ RoomFor (sampleMem realMem) 3 ∧ (sampleMem realMem).words ≤ 32768 ∧
    ArgValue (sampleMem realMem) (argWords false) true (-3 * 2 ^ 1074) ∧
    ArgValue (sampleMem realMem) 0 false (11 * 2 ^ 1072) := by
  refine ⟨rfl, .lt, ⟨⟨by decide, rfl⟩, fun _ => rfl, fun h => absurd h (by decide)⟩, ⟨by decide, by decide⟩,
    ⟨by decide, by decide⟩, by decide, ?_, ?_⟩
  · show _ = (opnd (sampleMem realMem) 4).toInt * 2 ^ 1074
    rw [show (opnd (sampleMem realMem) 4).toInt = -3 from by decide]
  · show RealValue (real (sampleMem realMem) 0) _
    rw [show real (sampleMem realMem) 0 = 0x4006000000000000#64 from by decide]
    exact denotes_275

/-- TRUNC(2.75) = 2. -/
example : Insn [Op.float.toByte, 0x02] 2#16 (sampleMem realMem) .float (fop 0x02 false false) 0 ∧
    ArgValue (sampleMem realMem) 0 false (11 * 2 ^ 1072) ∧ (11 * 2 ^ 1072 : Int).tdiv (2 ^ 1074) = 2 := by
  refine ⟨⟨⟨by decide, rfl⟩, fun _ => rfl, fun h => absurd h (by decide)⟩, ?_, ?_⟩
  · show RealValue (real (sampleMem realMem) 0) _
    rw [show real (sampleMem realMem) 0 = 0x4006000000000000#64 from by decide]
    exact denotes_275
  · rw [show (2 : Int) ^ 1074 = 4 * 2 ^ 1072 by rw [show (4 : Int) = 2 ^ 2 from rfl, ← Int.pow_add]]
    rw [Int.mul_tdiv_mul_of_pos_left]
    · rfl
    · exact Int.pow_pos (by decide)

/-- Comparing the integer -3 with infinity meets the hypotheses, and so does not-a-number. -/
example : FOrder 0x0c (fun a b => a.lt b) ∧
    ArgNum (sampleMem realMem) (argWords false) true (.num (-3 * 2 ^ 1074)) ∧
    Represents 0x7ff0000000000000#64 .high ∧ Represents 0x7ff8000000000000#64 .nan ∧
    Num.lt (.num (-3 * 2 ^ 1074)) .high = true ∧ Num.eq .high .high = true ∧ Num.eq .nan .nan = false := by
  refine ⟨.lt, ?_, rfl, ⟨false, 2 ^ 51, by decide, by decide, by decide⟩, rfl, rfl, rfl⟩
  show _ = Num.num ((opnd (sampleMem realMem) 4).toInt * 2 ^ 1074)
  rw [show (opnd (sampleMem realMem) 4).toInt = -3 from by decide]

end Pas.FloatOps
