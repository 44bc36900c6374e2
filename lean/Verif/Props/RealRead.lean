import Verif.Lemmas.RealRead
import Verif.Props.FilesRead

/-! Property C65: reading REALs. -/
namespace Pas
open Spec SysIo

theorem readReal_exec {lib : Lib} {fpu : FloatOps.Fpu} {host : Host} (hlib : lib.sysIo = sysIo fpu host)
    {code : List Byte} {maxpc : Word} {s : VM} (hr : Room s 2) (hi : Insn code maxpc s .sysio 0 0x17#16) :
    execute lib code maxpc s = (do
      let (r, s) ← readReal fpu { s with sp := s.sp - 4#16 } (opnd s 1).toNat (opnd s 0)
      .ok (r, { s with pc := s.pc + 3#16 })) := by
  obtain ⟨hr1, hr2⟩ := hr
  have htop : s.top = s.sp.toNat / 2 := rfl
  rw [sysio_exec hlib hi]
  simp only [sysIo, show (0x17#16).toNat = 0x17 from rfl]
  rw [Str.pop0 s hr2, Res.ok_bind, Str.pop1 s (by omega) hr2, Res.ok_bind]
  rfl

theorem realText_ne {w : List Byte} {neg : Bool} {i n f : Nat} (h : RealText w neg i n f) : w ≠ [] := by
  cases h with
  | none h =>
    cases h with
    | whole _ h0 => exact h0
    | point => simp
  | plus h => simp
  | minus h => simp

theorem realText_length {w : List Byte} {neg : Bool} {i n f : Nat} (h : RealText w neg i n f) : n ≤ w.length := by
  have u : ∀ {w : List Byte}, RealUnsigned w i n f → n ≤ w.length := by
    intro w h
    cases h with
    | whole => omega
    | point => simp; omega
  cases h with
  | none h => exact u h
  | plus h => have := u h; simp; omega
  | minus h => have := u h; simp; omega

/-- **C65**, REALs: when a line follows that begins with a number in decimal notation, READ stores this number in
the variable, exactly if it has no digits behind the point, and otherwise up to a bound for the rounding that grows
with the number of these digits and with the whole part.  The arithmetic of the host has to round as IEEE 754 says.
Missing for the full property: blanks in front of the number, an exponent, whole parts from 2147483600 on (see the
violations), and what is missing for integers as well. -/
theorem C65_read_real_partial (lib : Lib) (fpu : FloatOps.Fpu) (host : Host) (hlib : lib.sysIo = sysIo fpu host)
    (hf : Ieee fpu)
    (code : List Byte) (maxpc : Word) (s : VM) (hr : Room s 2) (hi : Insn code maxpc s .sysio 0 0x17#16)
    (he : (opnd s 0).toNat % 2 = 0) (hm : (opnd s 0).toNat / 2 + 4 ≤ s.words)
    (f : HostFile) (pos : Nat) (ho : OpenIn s (opnd s 1) f pos)
    (line more : List Byte) (hl : LineComes s f pos line more) (hlen : line.length ≤ 254)
    (num tail : List Byte) (neg : Bool) (whole places part : Nat) (hline : line = num ++ tail)
    (hnum : RealText num neg whole places part) (hend : Ends places tail) (hw : whole < 2147483600) :
    ∃ s' q, execute lib code maxpc s = .ok (eNOERROR, s') ∧
      DidRead s s' 2 (opnd s 1) f (pos + (line.length + 1)) true ∧
      RealIs (realAt s'.mem ((opnd s 0).toNat / 2)) q ∧
      |q - written neg whole places part| ≤ places * ((whole + 15) / 2 ^ 52) ∧
      ∀ j, (j < (opnd s 0).toNat / 2 ∨ (opnd s 0).toNat / 2 + 4 ≤ j) → s'.mem j = s.mem j := by
  obtain ⟨t, ht, rfl, rfl⟩ := ho.isOpen
  have hlong := realText_length hnum
  obtain ⟨x, hx, q, hq1, hq2⟩ := convertReal_ok hf hnum hend (by omega) (by
    rw [hline, List.length_append] at hlen; omega)
  rw [← hline] at hx
  obtain ⟨m, e1, e2, e3⟩ := readReal_line (fpu := fpu) (s := { s with sp := s.sp - 4#16 }) (dest := opnd s 0)
    ho.number ho.mode ht ⟨hl.text, hl.oneLine, hl.noNul⟩ (by rw [hline]; simp [realText_ne hnum]) hlen he (by exact hm) hx
  rw [readReal_exec hlib hr hi, e1]
  exact ⟨_, q, rfl, didRead_afterLine ho.number ho.mode _, by rw [← e2] at hq1; exact hq1, hq2, e3⟩

/-- "-3.25 x" -/
def realLine : List Byte := [45#8, 51#8, 46#8, 50#8, 53#8, 32#8, 120#8]

theorem realLine_text : RealText [45#8, 51#8, 46#8, 50#8, 53#8] true 3 2 25 :=
  .minus (.point (w := [51#8]) (d := [50#8, 53#8]) ⟨by decide, rfl⟩ ⟨by decide, rfl⟩ (.inl (by decide)))

/-- Non-vacuity: -3.25, which is -13/4, and arithmetic as required. -/
example : (∃ fpu, Ieee fpu) ∧ Room (readState (realLine ++ [10#8])) 2 ∧
    Insn [Op.sysio.toByte, 0, 0x17] 3#16 (readState (realLine ++ [10#8])) .sysio 0 0x17#16 ∧
    OpenIn (readState (realLine ++ [10#8])) 0#16 .stdin 0 ∧
    LineComes (readState (realLine ++ [10#8])) .stdin 0 realLine [] ∧
    RealText [45#8, 51#8, 46#8, 50#8, 53#8] true 3 2 25 ∧ Ends 2 [32#8, 120#8] ∧ written true 3 2 25 = -13 / 4 :=
  ⟨ieee_exists, ⟨by decide, by decide⟩, ⟨⟨by decide, rfl⟩, by decide, fun _ => ⟨0, 0x17, rfl, rfl, rfl⟩⟩,
   ⟨by decide, rfl, _, rfl, rfl, rfl⟩, ⟨rfl, by decide, by decide⟩, realLine_text,
   (by intro c hc; injection hc with hc; subst hc; decide), (by norm_num [written])⟩

/-- What READ stores for a line, with arithmetic that always gives 0 (none is needed for whole numbers). -/
def readRealOf (line : List Byte) : Res (BitVec 64) := do
  let (_, s) ← execute (machine barePlatform) [Op.sysio.toByte, 0, 0x17] 3#16 (readState (line ++ [10#8]))
  .ok (realAt s.mem 30)

/-- **C65** fails for REALs behind a blank: whatever follows, the number 0 is read; for example of " 3". -/
theorem C65_violation_real_blank (fpu : FloatOps.Fpu) (b : Byte) (hb : BlankChar b) (l : List Byte) :
    convertReal fpu (b :: l) = .ok 0#64 ∧ RealIs 0#64 0 ∧ readRealOf [32#8, 51#8] = .ok 0#64 := by
  refine ⟨?_, ⟨0, ⟨false, 0, 0, by decide, by decide, rfl, by simp⟩, by simp⟩, by decide +kernel⟩
  have h1 : b ≠ 43#8 ∧ b ≠ 45#8 ∧ b ≠ 46#8 := by
    refine ⟨?_, ?_, ?_⟩ <;> (rintro rfl; revert hb; unfold BlankChar; decide)
  have h2 : ¬(48 ≤ b.toNat ∧ b.toNat ≤ 57) := by unfold BlankChar at hb; omega
  unfold convertReal
  simp only [List.head?_cons, Option.some.injEq, h1.1, h1.2.1, or_self, if_false]
  rw [intPart, if_neg (by rw [isdigit_iff]; exact h2), Res.ok_bind]
  simp only [List.head?_cons, Option.some.injEq, h1.2.2, if_false]
  rfl

/-- **C65** fails for REALs with an exponent: of "2E3" the number 2 is read. -/
theorem C65_violation_real_exponent :
    readRealOf [50#8, 69#8, 51#8] = .ok 0x4000000000000000#64 ∧ RealIs 0x4000000000000000#64 2 :=
  ⟨by decide +kernel, by
    rw [show 0x4000000000000000#64 = FloatOps.ofInt 2 by decide +kernel]
    simpa using realIs_ofInt (i := 2) (by decide)⟩

theorem intPart_large : ∀ (d tail : List Byte) (v : Nat), (∀ b ∈ d, 48 ≤ b.toNat ∧ b.toNat ≤ 57) →
    v ≤ 2147483647 → 2147483647 < val d v → intPart v (d ++ tail) = .ub
  | [], _, v, _, h1, h2 => absurd h2 (by simp [val]; omega)
  | b :: d, tail, v, hd, h1, h2 => by
    have hb := hd b List.mem_cons_self
    rw [List.cons_append, intPart, if_pos ((isdigit_iff b).mpr hb)]
    split
    · rw [show 10 * v + b.toNat - 48 = 10 * v + (b.toNat - 48) by omega]
      exact intPart_large d tail _ (fun x hx => hd x (List.mem_cons_of_mem _ hx)) (by omega) h2
    · rfl

/-- **C65** fails for REALs with a whole part above 2147483647: what is read is undefined, although such numbers are
REALs (and are written by WRITE). -/
theorem C65_violation_real_large (fpu : FloatOps.Fpu) (d tail : List Byte) (n : Nat) (h : DigitText d n)
    (hn : 2147483647 < n) : convertReal fpu (d ++ tail) = .ub := by
  have hs : (d ++ tail).head? ≠ some 43#8 ∧ (d ++ tail).head? ≠ some 45#8 := by
    cases d with
    | nil => exact absurd hn (by rw [← h.value]; decide)
    | cons b w =>
      have := h.digits b List.mem_cons_self
      constructor <;> (intro e; injection e with e; subst e; revert this; decide)
  unfold convertReal
  dsimp only
  rw [if_neg (by rintro (h | h); exact hs.1 h; exact hs.2 h),
    intPart_large d tail 0 h.digits (by omega) (by have := h.value; rw [← this] at hn; exact hn)]
  rfl

/-- "3000000000" -/
example : DigitText [51#8, 48#8, 48#8, 48#8, 48#8, 48#8, 48#8, 48#8, 48#8, 48#8] 3000000000 := ⟨by decide, rfl⟩

end Pas
