import Verif.Lemmas.Listing

/-! C76: the listing of a program says which instructions it consists of. -/
namespace Pas.Props
open Pas.Spec Pas.Spec.Listing Pas.Disasm

/-- The disassembler always writes a line: it stays within its tables for every opcode and every operand. -/
theorem C76_total (i : OpType) : ∃ l, line i = .ok l := by
  obtain ⟨op, a1, a2⟩ := i
  have h8 : ∀ f a, ∃ l, arg8Text f a = .ok l := by
    intro f a
    have n : ∀ t max code inv, max ≤ t.length → ∃ l, nameOr t max code inv = .ok l := by
      intro t max code inv h
      unfold nameOr
      split
      · exact ⟨_, by simp only [entry, List.getElem?_eq_getElem (show code < t.length by omega), Res.ok_bind]; rfl⟩
      · exact ⟨_, rfl⟩
    cases f with
    | noarg8 | shortint | shortword => exact ⟨_, rfl⟩
    | fpOP => exact n _ _ _ _ (by decide)
    | setOP => exact n _ _ _ _ (by decide)
    | osOP => exact n _ _ _ _ (by decide)
  have h16 : ∀ f a, ∃ l, arg16Text f a = .ok l := by
    intro f a
    have n : ∀ t max code inv, max ≤ t.length → ∃ l, nameOr t max code inv = .ok l := by
      intro t max code inv h
      unfold nameOr
      split
      · exact ⟨_, by simp only [entry, List.getElem?_eq_getElem (show code < t.length by omega), Res.ok_bind]; rfl⟩
      · exact ⟨_, rfl⟩
    cases f with
    | noarg16 | hex | decimal | udecimal | labelDec | comment => exact ⟨_, rfl⟩
    | xOP => exact n _ _ _ _ (by decide)
    | lbOP => exact n _ _ _ _ (by decide)
  unfold line
  split
  · exact ⟨_, rfl⟩
  · have hlen : opTable.length = 256 := by decide +kernel
    have hop : op.toNat < opTable.length := by rw [hlen]; exact op.isLt
    unfold disassemble
    simp only [entry, List.getElem?_eq_getElem hop, Res.ok_bind]
    obtain ⟨x, hx⟩ := h8 (opTable[op.toNat]).fmt8 a1
    obtain ⟨y, hy⟩ := h16 (opTable[op.toNat]).fmt16 a2
    split
    · exact ⟨_, rfl⟩
    · cases hasArg8 op <;> cases hasArg16 op <;> simp [hx, hy]

/-- The listing of every sequence of bytes comes to its end without leaving a table, whatever the table of
line numbers looks like. -/
theorem C76_listing_total (t : List Poff.LineEntry) (p : List Byte) : ∃ text, dump t p = .ok text := by
  have key : ∀ (fuel : Nat) (p : List Byte) (pc : BitVec 32) (prev : Nat) (last : Option Nat),
      p.length < fuel → (prev + 2 ≤ t.length ∨ prev = 0) → ∃ text, dumpLoop t fuel p pc prev last = .ok text := by
    intro fuel
    induction fuel with
    | zero => intro p _ _ _ h; omega
    | succ fuel ih =>
      intro p pc prev last h hp
      cases p with
      | nil => exact ⟨[], rfl⟩
      | cons op rest =>
        obtain ⟨i, size, rest', hf, hr⟩ : ∃ i size rest', Disasm.fetch (op :: rest) = some (i, size, rest') ∧
            rest'.length ≤ rest.length := by
          have g : ∀ r : List Byte, (getByte r).2.length ≤ r.length := by
            intro r; cases r <;> simp [getByte]
          simp only [Disasm.fetch]
          refine ⟨_, _, _, rfl, ?_⟩
          cases hasArg8 op <;> cases hasArg16 op <;> simp only [if_true, if_false, Bool.false_eq_true]
          · omega
          · exact Nat.le_trans (g _) (g _)
          · exact g _
          · exact Nat.le_trans (g _) (Nat.le_trans (g _) (g _))
        obtain ⟨r, p', h1, h2⟩ := findLine_total t prev pc.toNat hp
        obtain ⟨l, hl⟩ := C76_total i
        simp only [dumpLoop, hf, h1, Res.ok_bind, hl]
        cases r with
        | none =>
          obtain ⟨text, ht⟩ := ih rest' (pc + BitVec.ofNat 32 size) p' last (by simp at h; omega) h2
          exact ⟨_, by simp only [ht, Res.ok_bind]; rfl⟩
        | some e =>
          by_cases hs : last = some p'
          · obtain ⟨text, ht⟩ := ih rest' (pc + BitVec.ofNat 32 size) p' last (by simp at h; omega) h2
            exact ⟨_, by simp only [hs, if_true] at ht ⊢; simp only [ht, Res.ok_bind]; rfl⟩
          · obtain ⟨text, ht⟩ := ih rest' (pc + BitVec.ofNat 32 size) p' (some p') (by simp at h; omega) h2
            exact ⟨_, by simp only [hs, if_false, ht, Res.ok_bind]; rfl⟩
  exact key _ _ _ _ _ (by omega) (.inr rfl)

/-- The line written for an instruction shows its name, as the header files have it, and its operands.  The
full claim is that this holds of all instructions; it fails for the long jumps, for functions of `FLOAT`
with the flags for integer operands and for levels above 127 (see the violations below). -/
theorem C76_line_partial (i : OpType) (h : Proper i) : ∃ l, line i = .ok l ∧ Line i l := line_proper h

example : Proper ⟨Op.pcal.toByte, 1#8, 0x0010#16⟩ ∧ Proper ⟨Op.float.toByte, 4#8, 0#16⟩ ∧
    Proper ⟨Op.longop8.toByte, 0x46#8, 0#16⟩ ∧ Proper ⟨Op.sysio.toByte, 0#8, 27#16⟩ :=
  ⟨⟨⟨.pcal, rfl, by decide, fun h => absurd h (by decide), fun h => absurd h (by decide), by decide⟩, by decide, by decide⟩,
   ⟨⟨.float, rfl, by decide, fun _ => ⟨"ADD", by decide +kernel⟩, fun h => absurd h (by decide), by decide⟩, by decide, by decide⟩,
   ⟨⟨.longop8, rfl, by decide, fun h => absurd h (by decide), fun h => absurd h (by decide), by decide +kernel⟩, by decide, by decide⟩,
   ⟨⟨.sysio, rfl, by decide, fun h => absurd h (by decide), fun _ => ⟨"WRITEINT", by decide +kernel⟩, by decide⟩, by decide, by decide⟩⟩

example : line ⟨Op.pcal.toByte, 1#8, 0x0010#16⟩ = .ok (letters "        PCAL  1, 0x0010\n") := by decide +kernel
example : line ⟨Op.push.toByte, 0#8, 0xfffe#16⟩ = .ok (letters "        PUSH  -2\n") := by decide +kernel

/-- A line stands for one instruction: two proper instructions with the same line are equal. -/
theorem C76_unambiguous_line {i j : OpType} (hi : Proper i) (hj : Proper j) (h : line i = line j) : i = j := by
  obtain ⟨l, h1, h2⟩ := line_proper hi
  obtain ⟨m, h3, h4⟩ := line_proper hj
  rw [h1, h3] at h
  injection h with h
  exact line_det_aux hi hj h2 h4 h

/-- The notation itself is unambiguous, whatever program writes it. -/
theorem C76_notation {i j : OpType} {l : List Byte} (hi : Proper i) (hj : Proper j) (h : Line i l)
    (h' : Line j l) : i = j := line_det_aux hi hj h h' rfl

/-- The listing of a program has one line for each instruction, in order, with its address, and headings where
the place in the source changes.  The places are right for addresses in front of the last entry of the table
of line numbers (or if it has one entry at most); behind it they are wrong, see `C41_violation`. -/
theorem C76_listing_partial (t : List Poff.LineEntry) (is : List OpType) (hi : ∀ i ∈ is, Proper i)
    (hs : StrictLines t) (hl : ∀ e ∈ t, e.lineno < 2 ^ 31) (hn : (is.flatMap encoded).length < 2 ^ 32)
    (hc : t.length ≤ 1 ∨ ∃ e, t.getLast? = some e ∧ (is.flatMap encoded).length ≤ e.offset) :
    ∃ text, dump t (is.flatMap encoded) = .ok text ∧ Listing t none 0 is text :=
  dumpLoop_listing hs hl hn hc is _ 0 0 none none [] [] hi (by omega) (by omega) rfl rfl

/-- The program can be read back from its listing: programs with the same listing have the same bytes. -/
theorem C76_unambiguous (t : List Poff.LineEntry) (is js : List OpType) (hi : ∀ i ∈ is, Proper i)
    (hj : ∀ j ∈ js, Proper j) (hs : StrictLines t) (hl : ∀ e ∈ t, e.lineno < 2 ^ 31)
    (hn : (is.flatMap encoded).length < 2 ^ 32) (hm : (js.flatMap encoded).length < 2 ^ 32)
    (hc : t.length ≤ 1 ∨ ∃ e, t.getLast? = some e ∧ (is.flatMap encoded).length ≤ e.offset ∧
      (js.flatMap encoded).length ≤ e.offset)
    (h : dump t (is.flatMap encoded) = dump t (js.flatMap encoded)) : is = js := by
  obtain ⟨x, h1, h2⟩ := C76_listing_partial t is hi hs hl hn (by
    rcases hc with hc | ⟨e, he, hc, _⟩
    · exact .inl hc
    · exact .inr ⟨e, he, hc⟩)
  obtain ⟨y, h3, h4⟩ := C76_listing_partial t js hj hs hl hm (by
    rcases hc with hc | ⟨e, he, _, hc⟩
    · exact .inl hc
    · exact .inr ⟨e, he, hc⟩)
  rw [h1, h3] at h
  injection h with h
  exact listing_det hs hi hj h2 h4 h

/-- A small program: a jump, a line number, an addition, the end. -/
def listProg : List OpType :=
  [⟨Op.jmp.toByte, 0#8, 3#16⟩, ⟨Op.pushb.toByte, 0xff#8, 0#16⟩, ⟨Op.upushb.toByte, 0xff#8, 0#16⟩,
   ⟨Op.add.toByte, 0#8, 0#16⟩, ⟨Op.end_.toByte, 0#8, 0#16⟩]

theorem listProg_proper : ∀ i ∈ listProg, Proper i := by
  intro i hi
  simp only [listProg, List.mem_cons, List.not_mem_nil, or_false] at hi
  rcases hi with rfl | rfl | rfl | rfl | rfl
  · exact ⟨⟨.jmp, rfl, by decide, fun h => absurd h (by decide), fun h => absurd h (by decide), by decide⟩, by decide, by decide⟩
  · exact ⟨⟨.pushb, rfl, by decide, fun h => absurd h (by decide), fun h => absurd h (by decide), by decide⟩, by decide, by decide⟩
  · exact ⟨⟨.upushb, rfl, by decide, fun h => absurd h (by decide), fun h => absurd h (by decide), by decide⟩, by decide, by decide⟩
  · exact ⟨⟨.add, rfl, by decide, fun h => absurd h (by decide), fun h => absurd h (by decide), by decide⟩, by decide, by decide⟩
  · exact ⟨⟨.end_, rfl, by decide, fun h => absurd h (by decide), fun h => absurd h (by decide), by decide⟩, by decide, by decide⟩

example : (listProg.flatMap encoded).length < 2 ^ 32 ∧ StrictLines [⟨7, letters "a.pas", 0⟩] := by
  refine ⟨by decide +kernel, ?_⟩
  intro i j a b h hi hj
  have := (List.getElem?_eq_some_iff.mp hj).1
  simp at this
  omega

example : dump [⟨7, letters "a.pas", 0⟩] (listProg.flatMap encoded) = .ok (letters (
    "\na.pas:7\n" ++
    "00000000         JMP   0x0003\n" ++
    "00000003         PUSHB -1\n" ++
    "00000005         UPUSHB 255\n" ++
    "00000007         ADD   \n" ++
    "00000008         END   \n")) := by decide +kernel

/-- The compiler's own listing shows the instruction whose bytes it writes, for all instructions that are not
long operations. -/
theorem C76_compiler_partial (op : Op) (arg1 : Word) (arg2 : BitVec 32) (h1 : op ≠ .longop8)
    (h2 : op ≠ .longop24) : ∃ i n, Disasm.fetch (generate op arg1 arg2).2 = some (i, n, []) ∧
      n = (generate op arg1 arg2).2.length ∧ listed op arg1 arg2 = line i := by
  have hb : (generate op arg1 arg2).2 = encoded ⟨op.toByte, if hasArg8 op.toByte then arg1.setWidth 8 else 0#8,
      if hasArg16 op.toByte then arg2.setWidth 16 else 0#16⟩ := by
    rw [encoded_eq]
    cases e1 : hasArg8 op.toByte <;> cases e2 : hasArg16 op.toByte <;>
      simp [generate, opBytes, e1, e2]
  have hlong : ¬ (op.toByte = Op.longop8.toByte ∨ op.toByte = Op.longop24.toByte) := by
    rintro (e | e)
    · exact h1 (Op.toByte_inj e)
    · exact h2 (Op.toByte_inj e)
  have hf := fetch_encoded (i := ⟨op.toByte, if hasArg8 op.toByte then arg1.setWidth 8 else 0#8,
      if hasArg16 op.toByte then arg2.setWidth 16 else 0#16⟩) (by intro h; simp [h]) (by intro h; simp [h]) []
  rw [List.append_nil] at hf
  refine ⟨_, _, by rw [hb]; exact hf, by rw [hb], ?_⟩
  simp only [line, hlong, if_false, listed]
  exact (disassemble_unused op.toByte (arg1.setWidth 8) (arg2.setWidth 16)).symm

example : listed .pcal 1#16 0x10#32 = .ok (letters "        PCAL  1, 0x0010\n") := by decide +kernel

/-! ### Where the listing is wrong -/

/-- Every long jump is shown as the plain long operation with the same low bits of the code: `DJEQUZ` as
`DNOP`, `DJNEQZ` as `DNEG`, and so on.  (The opcode 0x7f of the long jumps lacks the bit for a 16-bit
operand.) -/
theorem C76_violation_long_jump (b : Byte) (h1 : 0xc0 ≤ b.toNat) (h2 : b.toNat < 0xd0) :
    line ⟨Op.longop24.toByte, b, 0#16⟩ = line ⟨Op.longop8.toByte, b - 0x80#8, 0#16⟩ := by
  have key : ∀ c : Fin 16, line ⟨Op.longop24.toByte, BitVec.ofNat 8 (0xc0 + c), 0#16⟩ =
      line ⟨Op.longop8.toByte, BitVec.ofNat 8 (0xc0 + c) - 0x80#8, 0#16⟩ := by decide +kernel
  have := key ⟨b.toNat - 0xc0, by omega⟩
  have hb : BitVec.ofNat 8 (0xc0 + (b.toNat - 0xc0)) = b := by
    apply BitVec.eq_of_toNat_eq; simp; omega
  simpa only [hb] using this

/-- The destination of a long jump is listed as instructions: here a `DJEQUZ` to 0x3f06, whose listing is
that of the program `DNOP; END; ADD`. -/
theorem C76_violation_destination : dump [] (generateLong 0xc0#8 0x3f06#32) = .ok (letters (
      "00000000         DNOP \n" ++
      "00000002         END   \n" ++
      "00000003         ADD   \n")) ∧
    dump [] (generateLong 0xc0#8 0x3f06#32) = dump [] ([(⟨Op.longop8.toByte, 0x40#8, 0#16⟩ : OpType),
      ⟨Op.end_.toByte, 0#8, 0#16⟩, ⟨Op.add.toByte, 0#8, 0#16⟩].flatMap encoded) := by decide +kernel

/-- In the compiler's own listing every long operation without a destination is `DNOP` and every long jump is
`DJEQUZ`: the code of the operation is not passed on. -/
theorem C76_violation_compiler (b : Byte) (arg2 : BitVec 32) (h : hasArg8 b = true) :
    listedLong b arg2 = if hasArg16 b then letters "        DJEQUZ 0x" ++ hexN 4 (arg2.setWidth 16).toNat ++ letters "\n"
      else letters "        DNOP \n" := by
  have e1 : longOpTable24[0]? = some "DJEQUZ" := rfl
  have e2 : longOpTable8[0]? = some "DNOP" := rfl
  cases h16 : hasArg16 b
  · simp [listedLong, disassembleLong, longName, h, h16]
    decide +kernel
  · simp [listedLong, disassembleLong, longName, h, h16]
    have a1 : letters "        DJEQUZ 0x" = txt "        " ++ (txt "DJEQUZ" ++ (txt " " ++ txt "0x")) := by decide +kernel
    have a2 : letters "\n" = [10#8] := by decide +kernel
    have a3 : longOpTable24[0]'(by decide) = "DJEQUZ" := rfl
    have a4 : longOpTable24 ≠ [] := by decide
    simp [a1, a2]
    rfl

/-- The listing does not show which operands of a floating point operation are integers. -/
theorem C76_violation_float (a b : Byte) (h : a.toNat % 64 = b.toNat % 64) :
    line ⟨Op.float.toByte, a, 0#16⟩ = line ⟨Op.float.toByte, b, 0#16⟩ := by
  have hlong : ¬ (Op.float.toByte = Op.longop8.toByte ∨ Op.float.toByte = Op.longop24.toByte) := by decide +kernel
  obtain ⟨info, n, e1, e2, e3, e4, e5, e6⟩ := agree_op .float (f := .fpOP) (g := .noarg16) (a := true) (b := false) rfl
  simp only [line, hlong, if_false, disassemble, e1, Res.ok_bind, e2, e3, e4, e5, arg8Text, h, reduceCtorEq]

example : line ⟨Op.float.toByte, 0x04#8, 0#16⟩ = line ⟨Op.float.toByte, 0xc4#8, 0#16⟩ :=
  C76_violation_float _ _ (by decide)

/-- A nesting level above 127 is shown as a negative number. -/
theorem C76_violation_level (a : Byte) (w : Word) (h : 128 ≤ a.toNat) :
    line ⟨Op.pcal.toByte, a, w⟩ = .ok (letters "        PCAL  -" ++ SysIo.fmtU (256 - a.toNat) ++ letters ", 0x" ++
      hexN 4 w.toNat ++ letters "\n") := by
  have hlong : ¬ (Op.pcal.toByte = Op.longop8.toByte ∨ Op.pcal.toByte = Op.longop24.toByte) := by decide +kernel
  have e : entry opTable Op.pcal.toByte.toNat = .ok ⟨"PCAL ", .shortint, .hex⟩ := rfl
  have h8 : hasArg8 Op.pcal.toByte = true := by decide +kernel
  have h16 : hasArg16 Op.pcal.toByte = true := by decide +kernel
  have hi : a.toInt = (a.toNat : Int) - 256 := by rw [BitVec.toInt_eq_toNat_cond]; simp; omega
  have hf : SysIo.fmtD a.toInt = 45#8 :: SysIo.fmtU (256 - a.toNat) := by
    have := a.isLt
    have h1 : (a.toNat : Int) - 256 < 0 := by omega
    have h2 : ((a.toNat : Int) - 256).natAbs = 256 - a.toNat := by omega
    simp only [SysIo.fmtD, hi, h1, if_true, h2]
  have a1 : letters "        PCAL  -" = txt "        " ++ (txt "PCAL " ++ (txt " " ++ [45#8])) := by decide +kernel
  have a2 : letters ", 0x" = txt ", " ++ txt "0x" := by decide +kernel
  have a3 : letters "\n" = [10#8] := by decide +kernel
  simp [line, hlong, disassemble, e, h8, h16, arg8Text, arg16Text, hf, indentText, a1, a2, a3]

example : line ⟨Op.pcal.toByte, 200#8, 16#16⟩ = .ok (letters "        PCAL  -56, 0x0010\n") := by decide +kernel

/-- Instructions that are not defined are shown without their bytes: the line is the same for all of them with
the same number of operands. -/
theorem C76_violation_undefined (i j : OpType) (hi : Op.ofByte i.op = none) (hj : Op.ofByte j.op = none)
    (h8 : hasArg8 i.op = hasArg8 j.op) (h16 : hasArg16 i.op = hasArg16 j.op) : line i = line j := by
  have key : ∀ k < 256, Op.ofByte (BitVec.ofNat 8 k) = none →
      opTable[k]?.map (fun e => (e.opName.toList, e.fmt8, e.fmt16)) = some (invOp.toList, .noarg8, .noarg16) := by
    have : ((List.range 256).all fun k => !(decide (Op.ofByte (BitVec.ofNat 8 k) = none)) ||
      decide (opTable[k]?.map (fun e => (e.opName.toList, e.fmt8, e.fmt16)) =
        some (invOp.toList, .noarg8, .noarg16))) = true := by decide +kernel
    simp only [List.all_eq_true, List.mem_range] at this
    intro k hk h
    have := this k hk
    simpa [h] using this
  have ent : ∀ op : Byte, Op.ofByte op = none → ∃ s, entry opTable op.toNat = .ok ⟨s, .noarg8, .noarg16⟩ ∧
      s.toList = invOp.toList := by
    intro op h
    have := key op.toNat op.isLt (by simpa using h)
    generalize hx : opTable[op.toNat]? = x at this
    cases x with
    | none => simp at this
    | some e =>
      obtain ⟨s, f, g⟩ := e
      simp only [Option.map_some, Option.some.injEq, Prod.mk.injEq] at this
      obtain ⟨h1, rfl, rfl⟩ := this
      exact ⟨s, by simp [entry, hx], h1⟩
  have nl : ∀ op : Byte, Op.ofByte op = none → ¬ (op = Op.longop8.toByte ∨ op = Op.longop24.toByte) := by
    rintro op h (rfl | rfl) <;> rw [Op.ofByte_toByte] at h <;> cases h
  obtain ⟨s, es, hs⟩ := ent i.op hi
  obtain ⟨s', es', hs'⟩ := ent j.op hj
  have ht : txt s = txt s' := by simp [txt, hs, hs']
  simp only [line, nl _ hi, nl _ hj, if_false, disassemble, es, es', Res.ok_bind, h8, h16, indentText, arg8Text,
    arg16Text, ht, reduceCtorEq]

example : line ⟨0xf7#8, 0xc0#8, 0x1234#16⟩ = .ok (letters "        Invalid Opcode , \n") := by decide +kernel

/-- The codes of functions that are not defined are not shown. -/
theorem C76_violation_function (a b : Word) (ha : 0x2c ≤ a.toNat) (hb : 0x2c ≤ b.toNat) :
    line ⟨Op.sysio.toByte, 0#8, a⟩ = line ⟨Op.sysio.toByte, 0#8, b⟩ ∧
    line ⟨Op.sysio.toByte, 0#8, a⟩ = line ⟨Op.sysio.toByte, 0#8, 0#16⟩ := by
  have hlong : ¬ (Op.sysio.toByte = Op.longop8.toByte ∨ Op.sysio.toByte = Op.longop24.toByte) := by decide +kernel
  obtain ⟨info, n, e1, e2, e3, e4, e5, e6⟩ := agree_op .sysio (f := .noarg8) (g := .xOP) (a := false) (b := true) rfl
  have h1 : ∀ c : Word, 0x2c ≤ c.toNat → nameOr xName maxXop c.toNat invXOp = .ok (txt invXOp) := by
    intro c hc
    have : ¬ c.toNat < maxXop := by unfold maxXop; omega
    simp [nameOr, this]
  have h0 : nameOr xName maxXop (0#16).toNat invXOp = .ok (txt invXOp) := by decide +kernel
  simp only [line, hlong, if_false, disassemble, e1, Res.ok_bind, e2, e3, e4, e5, arg16Text, h1 a ha, h1 b hb, h0,
    and_self, indentText, reduceCtorEq, Bool.false_eq_true]

/-- When the last instruction is cut off, operands are listed that the program does not contain. -/
theorem C76_violation_cut_off : dump [] [Op.jmp.toByte] = .ok (letters "00000000         JMP   0xffff\n") ∧
    dump [] [Op.jmp.toByte] = dump [] (encoded ⟨Op.jmp.toByte, 0#8, 0xffff#16⟩) := by decide +kernel

/-- The last place in the source is never shown as a heading when there are two at least: its instructions
are listed under the place before. -/
theorem C76_violation_heading : dump [⟨1, letters "a", 0⟩, ⟨2, letters "a", 1⟩]
      ([(⟨Op.nop.toByte, 0#8, 0#16⟩ : OpType), ⟨Op.end_.toByte, 0#8, 0#16⟩].flatMap encoded) =
    .ok (letters ("\na:1\n" ++ "00000000         NOP   \n" ++ "00000001         END   \n")) ∧
    LineFor [⟨1, letters "a", 0⟩, ⟨2, letters "a", 1⟩] 1 ⟨2, letters "a", 1⟩ := by
  refine ⟨by decide +kernel, by simp, by simp, ?_⟩
  intro f hf
  simp at hf
  rcases hf with rfl | rfl <;> simp

end Pas.Props
