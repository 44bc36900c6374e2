import Verif.Model.Disasm
import Verif.Spec.Listing
import Verif.Lemmas.Files
import Verif.Props.Lines

/-! Helper lemmas about the disassembler and the program listing. -/
namespace Pas.Disasm
open Pas.Spec Pas.Spec.Listing Pas.SysIo

theorem txt_eq (s : String) : txt s = letters s := rfl

/-- Two texts that agree, split behind the characters with a property. -/
theorem span_inj {P : Byte → Prop} : ∀ {x y r s : List Byte}, (∀ b ∈ x, P b) → (∀ b ∈ y, P b) →
    (∀ b, r.head? = some b → ¬P b) → (∀ b, s.head? = some b → ¬P b) → x ++ r = y ++ s → x = y ∧ r = s
  | [], [], _, _, _, _, _, _, h => ⟨rfl, h⟩
  | [], b :: y, r, s, _, hy, hr, _, h => by
    simp only [List.nil_append] at h
    subst h
    exact absurd (hy b (by simp)) (hr b (by simp))
  | b :: x, [], r, s, hx, _, _, hs, h => by
    simp only [List.nil_append] at h
    subst h
    exact absurd (hx b (by simp)) (hs b (by simp))
  | b :: x, c :: y, r, s, hx, hy, hr, hs, h => by
    simp only [List.cons_append, List.cons.injEq] at h
    obtain ⟨h1, h2⟩ := h
    obtain ⟨h3, h4⟩ := span_inj (fun b hb => hx b (by simp [hb])) (fun b hb => hy b (by simp [hb])) hr hs h2
    exact ⟨by rw [h1, h3], h4⟩

theorem hexChar_digit {d : Nat} (h : d < 16) :
    ((48 ≤ (hexChar d).toNat ∧ (hexChar d).toNat ≤ 57) ∨ (97 ≤ (hexChar d).toNat ∧ (hexChar d).toNat ≤ 102)) ∧
    (if (hexChar d).toNat ≤ 57 then (hexChar d).toNat - 48 else (hexChar d).toNat - 87) = d := by
  have key : ∀ d : Fin 16,
      ((48 ≤ (hexChar d).toNat ∧ (hexChar d).toNat ≤ 57) ∨ (97 ≤ (hexChar d).toNat ∧ (hexChar d).toNat ≤ 102)) ∧
      (if (hexChar d).toNat ≤ 57 then (hexChar d).toNat - 48 else (hexChar d).toNat - 87) = (d : Nat) := by
    decide +kernel
  exact key ⟨d, h⟩

theorem hex_hexN : ∀ (w n : Nat), n < 16 ^ w → Hex (hexN w n) w n
  | 0, n, h => ⟨rfl, by simp [hexN], by simp at h; simp [hexN, h]⟩
  | w + 1, n, h => by
    have hd : n / 16 < 16 ^ w := by
      rw [Nat.div_lt_iff_lt_mul (by omega)]; rw [Nat.pow_succ] at h; exact h
    have ih := hex_hexN w (n / 16) hd
    have hc := hexChar_digit (d := n % 16) (by omega)
    refine ⟨by simp [hexN, ih.length], ?_, ?_⟩
    · intro b hb
      simp only [hexN, List.mem_append, List.mem_singleton] at hb
      rcases hb with hb | rfl
      · exact ih.digits b hb
      · exact hc.1
    · simp only [hexN, List.foldl_append, List.foldl_cons, List.foldl_nil, ih.value, hc.2]
      omega

/-- A hexadecimal text determines its value. -/
theorem hex_det {l : List Byte} {w v n m : Nat} (h : Hex l w n) (h' : Hex l v m) : n = m :=
  h.value.symm.trans h'.value

theorem decimal_det {l : List Byte} {n m : Nat} (h : Decimal l n) (h' : Decimal l m) : n = m :=
  h.value.symm.trans h'.value

theorem decimal_no_minus {l : List Byte} {n : Nat} (h : Decimal (45#8 :: l) n) : False := by
  have := h.digits 45#8 (by simp)
  simp at this

theorem decimalInt_det {l : List Byte} {i j : Int} (h : DecimalInt l i) (h' : DecimalInt l j) : i = j := by
  rcases h with ⟨n, rfl, h⟩ | ⟨n, r, _, rfl, rfl, h⟩ <;> rcases h' with ⟨m, rfl, h'⟩ | ⟨m, r', _, rfl, e, h'⟩
  · rw [decimal_det h h']
  · subst e; exact (decimal_no_minus h).elim
  · exact (decimal_no_minus h').elim
  · simp only [List.cons.injEq, true_and] at e
    subst e
    rw [decimal_det h h']

/-- The characters of numbers: digits and the minus sign. -/
theorem decimalInt_chars {l : List Byte} {i : Int} (h : DecimalInt l i) :
    l ≠ [] ∧ ∀ b ∈ l, b.toNat = 45 ∨ 48 ≤ b.toNat ∧ b.toNat ≤ 57 := by
  rcases h with ⟨n, rfl, h⟩ | ⟨n, r, _, rfl, rfl, h⟩
  · exact ⟨h.nonempty, fun b hb => .inr (h.digits b hb)⟩
  · refine ⟨by simp, ?_⟩
    intro b hb
    simp only [List.mem_cons] at hb
    rcases hb with rfl | hb
    · exact .inl rfl
    · exact .inr (h.digits b hb)

theorem decimal_toInt {l : List Byte} {n : Nat} (h : Decimal l n) : DecimalInt l n := .inl ⟨n, rfl, h⟩

/-! ### The tables agree with the header files -/

/-- The formats and the operands of the kinds. -/
def fmts : Kind → Op → Option (Fmt8 × Fmt16 × Bool × Bool)
  | .none, _ => some (.noarg8, .noarg16, false, false)
  | .signed8, _ => some (.shortint, .noarg16, true, false)
  | .unsigned8, _ => some (.shortword, .noarg16, true, false)
  | .target, _ => some (.noarg8, .hex, false, true)
  | .unsigned16, _ => some (.noarg8, .udecimal, false, true)
  | .signed16, _ => some (.noarg8, .decimal, false, true)
  | .levelTarget, _ => some (.shortint, .hex, true, true)
  | .levelOffset, _ => some (.shortint, .decimal, true, true)
  | .function8, .float => some (.fpOP, .noarg16, true, false)
  | .function8, .setop => some (.setOP, .noarg16, true, false)
  | .function8, .osop => some (.osOP, .noarg16, true, false)
  | .function16, .strlib => some (.noarg8, .lbOP, false, true)
  | .function16, .sysio => some (.noarg8, .xOP, false, true)
  | .label, _ => some (.noarg8, .labelDec, false, true)
  | .source, _ => some (.shortword, .comment, true, true)
  | _, _ => none

/-- The entry of an opcode, as it should be. -/
def agree (o : Op) : Bool :=
  match fmts (kind o) o, opTable[o.toByte.toNat]? with
  | none, _ => decide (o = .longop8 ∨ o = .longop24)
  | some (f, g, a, b), some info =>
    decide (info.fmt8 = f) && decide (info.fmt16 = g) && decide (hasArg8 o.toByte = a) &&
      decide (hasArg16 o.toByte = b) &&
      decide (txt info.opName = letters (mnemonic o) ++
        List.replicate ((txt info.opName).length - (letters (mnemonic o)).length) 32#8)
  | _, _ => false

theorem agree_all : ∀ o ∈ Op.all, agree o = true := by decide +kernel

theorem agree_op (o : Op) {f : Fmt8} {g : Fmt16} {a b : Bool} (h : fmts (kind o) o = some (f, g, a, b)) :
    ∃ info n, entry opTable o.toByte.toNat = .ok info ∧ info.fmt8 = f ∧ info.fmt16 = g ∧
      hasArg8 o.toByte = a ∧ hasArg16 o.toByte = b ∧
      txt info.opName = letters (mnemonic o) ++ List.replicate n 32#8 := by
  have k := agree_all o o.mem_all
  simp only [agree, h] at k
  generalize he : opTable[o.toByte.toNat]? = e at k
  cases e with
  | none => simp at k
  | some info =>
    simp only [Bool.and_eq_true, decide_eq_true_eq] at k
    obtain ⟨⟨⟨⟨h1, h2⟩, h3⟩, h4⟩, h5⟩ := k
    exact ⟨info, _, by simp [entry, he], h1, h2, h3, h4, h5⟩

/-- The functions of an opcode are named in the tables. -/
def agreeFn (o : Op) (t : List String) (max m : Nat) : Bool :=
  (functions o).all fun (c, s) =>
    decide (c % m < max) && decide (c < m) && match t[c % m]? with
      | some x => decide (txt x = letters s ++ List.replicate ((txt x).length - (letters s).length) 32#8)
      | none => false

theorem agreeFn_all : agreeFn .float fpName maxFop 64 = true ∧ agreeFn .setop sName maxSetop 256 = true ∧
    agreeFn .osop osName maxOsop 256 = true ∧ agreeFn .strlib lbName maxLbop 65536 = true ∧
    agreeFn .sysio xName maxXop 65536 = true := by decide +kernel

theorem nameOr_fn {o : Op} {t : List String} {max m c : Nat} {s inv : String} (h : agreeFn o t max m = true)
    (hc : (c, s) ∈ functions o) : ∃ n, nameOr t max (c % m) inv = .ok (letters s ++ List.replicate n 32#8) := by
  simp only [agreeFn, List.all_eq_true] at h
  have k := h _ hc
  dsimp only at k
  generalize he : t[c % m]? = e at k
  cases e with
  | none => simp at k
  | some x =>
    simp only [Bool.and_eq_true, decide_eq_true_eq] at k
    exact ⟨_, by simp only [nameOr, k.1.1, if_true, entry, he, Res.ok_bind]; rw [k.2]⟩

theorem blank_replicate (n : Nat) : Blank (List.replicate n 32#8) := by
  intro b hb; exact (List.mem_replicate.mp hb).2

theorem fmtD_nat (n : Nat) : fmtD (n : Int) = fmtU n := by
  have : ¬ ((n : Int) < 0) := by omega
  simp [fmtD, this]

theorem toInt_small {a : Byte} (h : a.toNat < 128) : a.toInt = (a.toNat : Int) := by
  rw [BitVec.toInt_eq_toNat_cond]; simp; omega

theorem decimal8 (a : Byte) : Decimal (fmtU a.toNat) a.toNat := decimal_fmtU (by have := a.isLt; omega)
theorem decimal16 (a : Word) : Decimal (fmtU a.toNat) a.toNat := decimal_fmtU (by have := a.isLt; omega)
theorem decimalInt8 (a : Byte) : DecimalInt (fmtD a.toInt) a.toInt :=
  decimalInt_fmtD (by have := a.toInt_lt; have := a.le_toInt; omega) (by have := a.toInt_lt; omega)
theorem decimalInt16 (a : Word) : DecimalInt (fmtD a.toInt) a.toInt :=
  decimalInt_fmtD (by have := a.toInt_lt; have := a.le_toInt; omega) (by have := a.toInt_lt; omega)
theorem address16 (a : Word) : Address (txt "0x" ++ hexN 4 a.toNat) a :=
  ⟨_, rfl, hex_hexN 4 _ (by have := a.isLt; omega)⟩

/-- An instruction whose operands are shown as they should. -/
theorem line_insn {o : Op} {a1 : Byte} {a2 : Word} {f : Fmt8} {g : Fmt16} {a b : Bool} {x y : List Byte}
    (h : fmts (kind o) o = some (f, g, a, b)) (hl : kind o ≠ .label) (hs : kind o ≠ .source)
    (h1 : (if a then arg8Text f a1 else .ok []) = .ok x) (h2 : (if b then arg16Text g a2 else .ok []) = .ok y)
    (ha : Operands o a1 a2 (x ++ (if a && b then letters ", " else []) ++ y)) :
    ∃ l, line ⟨o.toByte, a1, a2⟩ = .ok l ∧ Line ⟨o.toByte, a1, a2⟩ l := by
  obtain ⟨info, n, e1, e2, e3, e4, e5, e6⟩ := agree_op o h
  have hg : g ≠ .comment ∧ g ≠ .labelDec := by
    revert h hl hs
    cases o <;> simp [kind, fmts] <;> (rintro - rfl - -; simp)
  have hlong : ¬ (o.toByte = Op.longop8.toByte ∨ o.toByte = Op.longop24.toByte) := by
    rintro (e | e) <;> rw [Op.toByte_inj e] at h <;> simp [kind, fmts] at h
  refine ⟨_, ?_, .insn (bl := List.replicate n 32#8) (blank_replicate n) ha⟩
  have hin : indentText g a2 = letters "        " := by
    clear h h2 e3
    cases g <;> simp_all [indentText, txt_eq]
  simp only [line, hlong, if_false, disassemble, e1, Res.ok_bind, e2, e3, e4, e5, hg.1, hg.2, h1, h2, e6]
  rw [hin]
  have : (letters " " : List Byte) = [32#8] := by decide +kernel
  have h10 : (letters "\n" : List Byte) = [10#8] := by decide +kernel
  simp only [txt_eq, List.append_assoc, this, h10]
  congr 3
  rw [← List.append_assoc (List.replicate n 32#8), ← List.append_assoc [32#8], List.singleton_append,
    ← List.replicate_succ, ← List.replicate_succ']

theorem line_label (a1 : Byte) (a2 : Word) :
    ∃ l, line ⟨Op.label.toByte, a1, a2⟩ = .ok l ∧ Line ⟨Op.label.toByte, a1, a2⟩ l := by
  obtain ⟨info, n, e1, e2, e3, e4, e5, e6⟩ := agree_op .label (f := .noarg8) (g := .labelDec) (a := false) (b := true) rfl
  refine ⟨_, ?_, .label (bl := letters "  ") ?_ (hex_hexN 4 a2.toNat (by have := a2.isLt; omega))⟩
  · have hlong : ¬ (Op.label.toByte = Op.longop8.toByte ∨ Op.label.toByte = Op.longop24.toByte) := by decide +kernel
    simp only [line, hlong, if_false, disassemble, e1, Res.ok_bind, e2, e3, e4, e5, indentText, arg16Text, txt_eq]
    have h10 : (letters "\n" : List Byte) = [10#8] := by decide +kernel
    have h3 : (letters ":  " : List Byte) = letters ":" ++ letters "  " := by decide +kernel
    simp [h10, h3]
  · intro b hb
    have : ∀ b ∈ letters "  ", b = 32#8 := by decide +kernel
    exact this b hb

theorem line_source (a1 : Byte) (a2 : Word) :
    ∃ l, line ⟨Op.line.toByte, a1, a2⟩ = .ok l ∧ Line ⟨Op.line.toByte, a1, a2⟩ l := by
  obtain ⟨info, n, e1, e2, e3, e4, e5, e6⟩ := agree_op .line (f := .shortword) (g := .comment) (a := true) (b := true) rfl
  refine ⟨_, ?_, .source (bl := List.replicate n 32#8) (blank_replicate n) (decimal8 a1) (decimal16 a2)⟩
  have hlong : ¬ (Op.line.toByte = Op.longop8.toByte ∨ Op.line.toByte = Op.longop24.toByte) := by decide +kernel
  simp only [line, hlong, if_false, disassemble, e1, Res.ok_bind, e2, e3, e4, e5, indentText, if_true, e6, fmtD_nat]
  have h10 : (letters "\n" : List Byte) = [10#8] := by decide +kernel
  have h3 : (letters "; LINE" : List Byte) = letters "; " ++ letters "LINE" := by decide +kernel
  have h4 : (letters " " : List Byte) = [32#8] := by decide +kernel
  simp only [txt_eq, List.append_assoc, h10, h3, h4, mnemonic]
  congr 3
  rw [← List.append_assoc (List.replicate n 32#8), ← List.append_assoc [32#8], List.singleton_append,
    ← List.replicate_succ, ← List.replicate_succ']

/-- The long operations are named in the table. -/
theorem agree_long : ∀ c < 41, ∃ s x n, longNames[c]? = some s ∧ longOpTable8[c]? = some x ∧
    n = (txt x).length - (letters s).length ∧ txt x = letters s ++ List.replicate n 32#8 := by
  have key : ((List.range 41).all fun c => match longNames[c]?, longOpTable8[c]? with
      | some s, some x => decide (txt x = letters s ++ List.replicate ((txt x).length - (letters s).length) 32#8)
      | _, _ => false) = true := by decide +kernel
  intro c hc
  simp only [List.all_eq_true, List.mem_range] at key
  have k := key c hc
  generalize h1 : longNames[c]? = e at k
  generalize h2 : longOpTable8[c]? = d at k
  cases e <;> cases d <;> simp at k
  exact ⟨_, _, _, rfl, rfl, rfl, k⟩

theorem line_long {a1 : Byte} (a2 : Word) (h1 : 0x40 ≤ a1.toNat) (h2 : a1.toNat < 0x40 + longNames.length) :
    ∃ l, line ⟨Op.longop8.toByte, a1, a2⟩ = .ok l ∧ Line ⟨Op.longop8.toByte, a1, a2⟩ l := by
  have hlen : longNames.length = 41 := by decide +kernel
  have hlen8 : longOpTable8.length = 41 := by decide +kernel
  have hm : a1.toNat % 64 = a1.toNat - 0x40 := by omega
  obtain ⟨s, x, n, e1, e2, _, e3⟩ := agree_long (a1.toNat - 0x40) (by omega)
  refine ⟨_, ?_, .long (bl := List.replicate n 32#8) (blank_replicate n) e1 h1⟩
  have hn : longName ⟨Op.longop8.toByte, a1, a2⟩ = some x := by
    have h8 : hasArg8 Op.longop8.toByte = true := by decide +kernel
    have h16 : hasArg16 Op.longop8.toByte = false := by decide +kernel
    have : a1.toNat - 64 < 41 := by omega
    simp only [longName, h8, h16, hm, hlen8, this, if_true, Bool.not_false, decide_true, Bool.and_self]
    exact e2
  have h16 : hasArg16 Op.longop8.toByte = false := by decide +kernel
  simp only [line, true_or, if_true, disassembleLong, hn, h16, e3]
  have h10 : (letters "\n" : List Byte) = [10#8] := by decide +kernel
  have h4 : (letters " " : List Byte) = [32#8] := by decide +kernel
  simp only [txt_eq, List.append_assoc, h10, h4, Bool.false_eq_true, if_false, List.nil_append]
  congr 3
  rw [← List.append_assoc (List.replicate n 32#8), ← List.append_assoc [32#8], List.singleton_append,
    ← List.replicate_succ, ← List.replicate_succ']

theorem line_function8 {o : Op} {t : List String} {max m : Nat} {f : Fmt8} {inv : String} {a1 : Byte} {s : String}
    (hk : kind o = .function8) (hf : fmts (kind o) o = some (f, .noarg16, true, false))
    (ht : ∀ a, arg8Text f a = nameOr t max (a.toNat % m) inv) (ha : agreeFn o t max m = true)
    (hs : (a1.toNat, s) ∈ functions o) (a2 : Word) :
    ∃ l, line ⟨o.toByte, a1, a2⟩ = .ok l ∧ Line ⟨o.toByte, a1, a2⟩ l := by
  obtain ⟨n, hn⟩ := nameOr_fn (inv := inv) ha hs
  refine line_insn (x := letters s ++ List.replicate n 32#8) (y := []) hf (by simp [hk]) (by simp [hk])
    (by simp [ht, hn]) (by simp) ?_
  simp only [Operands, hk]
  exact ⟨s, _, hs, by simp, blank_replicate n⟩

theorem line_function16 {o : Op} {t : List String} {max m : Nat} {f : Fmt16} {inv : String} {a2 : Word} {s : String}
    (hk : kind o = .function16) (hf : fmts (kind o) o = some (.noarg8, f, false, true))
    (ht : ∀ a, arg16Text f a = nameOr t max (a.toNat % m) inv) (ha : agreeFn o t max m = true)
    (hs : (a2.toNat, s) ∈ functions o) (a1 : Byte) :
    ∃ l, line ⟨o.toByte, a1, a2⟩ = .ok l ∧ Line ⟨o.toByte, a1, a2⟩ l := by
  obtain ⟨n, hn⟩ := nameOr_fn (inv := inv) ha hs
  refine line_insn (x := []) (y := letters s ++ List.replicate n 32#8) hf (by simp [hk]) (by simp [hk])
    (by simp) (by simp [ht, hn]) ?_
  simp only [Operands, hk]
  exact ⟨s, _, hs, by simp, blank_replicate n⟩

theorem mod8 (a : Byte) : a.toNat % 256 = a.toNat := Nat.mod_eq_of_lt a.isLt
theorem mod16 (a : Word) : a.toNat % 65536 = a.toNat := Nat.mod_eq_of_lt a.isLt

/-- The line of every proper instruction says what it is. -/
theorem line_proper {i : OpType} (h : Proper i) : ∃ l, line i = .ok l ∧ Line i l := by
  obtain ⟨op, a1, a2⟩ := i
  obtain ⟨⟨o, rfl, hlev, hf8, hf16, hlong⟩, -, -⟩ := h
  dsimp only at hlev hf8 hf16 hlong
  generalize hk : kind o = k at *
  cases k with
  | none =>
    exact line_insn (f := .noarg8) (g := .noarg16) (a := false) (b := false) (x := []) (y := [])
      (by rw [hk]; rfl) (by simp [hk]) (by simp [hk]) (by simp) (by simp) (by simp [Operands, hk])
  | signed8 =>
    exact line_insn (f := .shortint) (g := .noarg16) (a := true) (b := false) (y := [])
      (by rw [hk]; rfl) (by simp [hk]) (by simp [hk]) rfl rfl (by simpa [Operands, hk] using decimalInt8 a1)
  | unsigned8 =>
    exact line_insn (f := .shortword) (g := .noarg16) (a := true) (b := false) (y := [])
      (by rw [hk]; rfl) (by simp [hk]) (by simp [hk]) rfl rfl (by simpa [Operands, hk] using decimal8 a1)
  | target =>
    exact line_insn (f := .noarg8) (g := .hex) (a := false) (b := true) (x := [])
      (by rw [hk]; rfl) (by simp [hk]) (by simp [hk]) rfl rfl (by simpa [Operands, hk] using address16 a2)
  | unsigned16 =>
    exact line_insn (f := .noarg8) (g := .udecimal) (a := false) (b := true) (x := [])
      (by rw [hk]; rfl) (by simp [hk]) (by simp [hk]) rfl rfl (by simpa [Operands, hk] using decimal16 a2)
  | signed16 =>
    exact line_insn (f := .noarg8) (g := .decimal) (a := false) (b := true) (x := [])
      (by rw [hk]; rfl) (by simp [hk]) (by simp [hk]) rfl rfl (by simpa [Operands, hk] using decimalInt16 a2)
  | levelTarget =>
    have hs := hlev (.inl rfl)
    refine line_insn (f := .shortint) (g := .hex) (a := true) (b := true)
      (by rw [hk]; rfl) (by simp [hk]) (by simp [hk]) rfl rfl ?_
    simp only [Operands, hk]
    exact ⟨_, _, rfl, by rw [toInt_small hs, fmtD_nat]; exact decimal8 a1, address16 a2⟩
  | levelOffset =>
    have hs := hlev (.inr rfl)
    refine line_insn (f := .shortint) (g := .decimal) (a := true) (b := true)
      (by rw [hk]; rfl) (by simp [hk]) (by simp [hk]) rfl rfl ?_
    simp only [Operands, hk]
    exact ⟨_, _, rfl, by rw [toInt_small hs, fmtD_nat]; exact decimal8 a1, decimalInt16 a2⟩
  | function8 =>
    obtain ⟨s, hs⟩ := hf8 rfl
    have : o = .float ∨ o = .setop ∨ o = .osop := by revert hk; cases o <;> simp [kind]
    rcases this with rfl | rfl | rfl
    · exact line_function8 (m := 64) rfl rfl (fun _ => rfl) agreeFn_all.1 hs a2
    · exact line_function8 (m := 256) rfl rfl (fun a => by rw [mod8]; rfl) agreeFn_all.2.1 hs a2
    · exact line_function8 (m := 256) rfl rfl (fun a => by rw [mod8]; rfl) agreeFn_all.2.2.1 hs a2
  | function16 =>
    obtain ⟨s, hs⟩ := hf16 rfl
    have : o = .strlib ∨ o = .sysio := by revert hk; cases o <;> simp [kind]
    rcases this with rfl | rfl
    · exact line_function16 (m := 65536) rfl rfl (fun a => by rw [mod16]; rfl) agreeFn_all.2.2.2.1 hs a1
    · exact line_function16 (m := 65536) rfl rfl (fun a => by rw [mod16]; rfl) agreeFn_all.2.2.2.2 hs a1
  | long =>
    obtain ⟨rfl, h1, h2⟩ := hlong rfl
    exact line_long a2 h1 h2
  | label =>
    have : o = .label := by revert hk; cases o <;> simp [kind]
    subst this
    exact line_label a1 a2
  | source =>
    have : o = .line := by revert hk; cases o <;> simp [kind]
    subst this
    exact line_source a1 a2

/-! ### A line determines the instruction -/

/-- A text without blanks and ends of lines. -/
def solid (l : List Byte) : Bool := l.all fun b => !(b.toNat == 32) && !(b.toNat == 10)

theorem solid_mem {l : List Byte} (h : solid l = true) {b : Byte} (hb : b ∈ l) : b ≠ 32#8 ∧ b ≠ 10#8 := by
  have := List.all_eq_true.mp h b hb
  constructor <;> rintro rfl <;> exact absurd this (by decide)

theorem names_solid : (Op.all.all fun o => solid (letters (mnemonic o))) = true := by decide +kernel
theorem longNames_solid : (longNames.all fun s => solid (letters s)) = true := by decide +kernel
theorem fnames_solid : (Op.all.all fun o => (functions o).all fun p =>
    !(letters p.2).isEmpty && solid (letters p.2)) = true := by decide +kernel

theorem names_blank : ∀ o ∈ Op.all, ∀ b ∈ letters (mnemonic o), b ≠ 32#8 := fun o ho _ hb =>
  (solid_mem (List.all_eq_true.mp names_solid o ho) hb).1
theorem longNames_blank : ∀ s ∈ longNames, ∀ b ∈ letters s, b ≠ 32#8 := fun s hs _ hb =>
  (solid_mem (List.all_eq_true.mp longNames_solid s hs) hb).1
/-- A number for a text, to compare many texts. -/
def textKey (l : List Byte) : Nat := l.foldl (fun a b => a * 256 + b.toNat) 0

theorem inj_of_keys {α : Type} (f : α → Nat) : ∀ {l : List α} {ks : List Nat}, l.map f = ks → ks.Nodup →
    ∀ a ∈ l, ∀ b ∈ l, f a = f b → a = b
  | [], _, _, _, a, ha, _, _, _ => by simp at ha
  | x :: l, ks, h, hn, a, ha, b, hb, e => by
    subst h
    rw [List.map_cons, List.nodup_cons] at hn
    rw [List.mem_cons] at ha hb
    rcases ha with rfl | ha <;> rcases hb with rfl | hb
    · rfl
    · exact absurd (e ▸ List.mem_map.mpr ⟨b, hb, rfl⟩) hn.1
    · exact absurd (e ▸ List.mem_map.mpr ⟨a, ha, rfl⟩) hn.1
    · exact inj_of_keys f rfl hn.2 a ha b hb e

/-- The names of operations and long operations. -/
def itemName : Op ⊕ Nat → List Byte
  | .inl o => letters (mnemonic o)
  | .inr c => letters (longNames.getD c "")

def items : List (Op ⊕ Nat) := Op.all.map .inl ++ (List.range 41).map .inr

def itemKeys : List Nat :=
  [5132112, 5129543, 4276819, 4804163, 4474179, 5132116, 4277316, 5461314, 5068108, 4475222, 5066564, 5459020,
   5460556, 5460545, 20306, 4279876, 1162958170, 1313165658, 5002330, 1196705114, 4674650, 1280591194,
   4542805, 5129553, 19540, 4674629, 18260, 5002309, 4998217, 1279543618, 366351763778, 1279543629, 5461065,
   1398032706, 1398032717, 4478288, 1480804423, 5391700, 1431131468, 1430538582, 1431129924, 5590100,
   1430737989, 5588820, 1431065669, 5787474, 4542020, 301927973204, 357645438800, 21479295852433464,
   1330859856, 345028905026, 93803517265986, 318990538074, 319140745562, 1246516314, 319024285018, 1246188634,
   319108171098, 4869456, 1246056789, 1246643537, 4869204, 1246188613, 4867924, 1246516293, 19524, 4998210,
   1431061570, 4998221, 21332, 5461058, 5461069, 4998232, 1279547458, 366351767618, 1279547469, 5461080,
   1398036546, 1398036557, 19521, 4997443, 4997458, 1347769160, 1229866067, 1229865811, 4999490, 357980916047,
   4997464, 1247104084, 319258317893, 1247102804, 319258645573, 327512376652, 1346584908, 4998227, 1279546178,
   366351766338, 1279546189, 5461075, 1398035266, 1398035277, 1279546200, 327563827266, 93786052188226,
   327563827277, 1398035288, 357897033794, 357897033805, 4997459, 1279349592, 5498699738222965300, 1279872581,
   1145982800, 1145980231, 1145127507, 1145654851, 1145324867, 1145982804, 1145128004, 1146312002, 1145918796,
   1145325910, 1145917252, 1146309708, 1146311244, 1146311233, 4476754, 1145130564, 293220734298,
   293370941786, 1145853018, 293254481242, 1145525338, 293338367322, 1145393493, 1145980241, 4475988,
   1145525317, 4474708, 1145852997, 1145328976, 293538580551, 1129207364, 366201427524, 1145261654,
   293488907596, 293488314710, 293488906052, 1146440788, 293488514117, 1146439508, 293488841797, 1146638162]

theorem items_inj : ∀ a ∈ items, ∀ b ∈ items, itemName a = itemName b → a = b := fun a ha b hb e =>
  inj_of_keys (fun i => textKey (itemName i)) (ks := itemKeys) (by decide +kernel) (by decide +kernel) a ha b hb
    (congrArg textKey e)

theorem names_inj : ∀ o ∈ Op.all, ∀ o' ∈ Op.all, letters (mnemonic o) = letters (mnemonic o') → o = o' := by
  intro o ho o' ho' h
  have := items_inj (.inl o) (by simp [items, ho]) (.inl o') (by simp [items, ho']) h
  injection this
theorem names_long : ∀ o ∈ Op.all, ∀ s ∈ longNames, letters (mnemonic o) ≠ letters s := by
  intro o ho s hs h
  obtain ⟨c, hc, rfl⟩ := List.getElem_of_mem hs
  have hc' : c < 41 := hc
  have := items_inj (.inl o) (by simp [items, ho]) (.inr c) (by simp [items, hc']) (by
    rw [itemName, itemName, h, List.getD_eq_getElem?_getD, List.getElem?_eq_getElem hc, Option.getD_some])
  cases this
theorem longNames_inj : ∀ c < 41, ∀ d < 41, (longNames[c]?).map letters = (longNames[d]?).map letters → c = d := by
  intro c hc d hd h
  have hc' : c < longNames.length := hc
  have hd' : d < longNames.length := hd
  have := items_inj (.inr c) (by simp [items, hc]) (.inr d) (by simp [items, hd]) (by
    simp only [itemName, List.getD_eq_getElem?_getD]
    rw [List.getElem?_eq_getElem hc', List.getElem?_eq_getElem hd'] at h ⊢
    simpa using h)
  injection this
theorem fnames_blank : ∀ o ∈ Op.all, ∀ p ∈ functions o, letters p.2 ≠ [] ∧ ∀ b ∈ letters p.2, b ≠ 32#8 := by
  intro o ho p hp
  have := List.all_eq_true.mp (List.all_eq_true.mp fnames_solid o ho) p hp
  rw [Bool.and_eq_true] at this
  exact ⟨fun h => by rw [h] at this; simp at this, fun b hb => (solid_mem this.2 hb).1⟩
def fnKeys : Op → List Nat
  | .float =>
    [301927973204, 362158575171, 353518308932, 4277316, 5461314, 5068108, 4475222, 5066564, 4542805,
     5129553, 19540, 4674629, 18260, 5002309, 5129543, 4276819, 5460306, 1397838420, 5458254, 4411219,
     1096040782, 19534, 4544592]
  | .setop =>
    [297649853529, 22687099888430194518349401934, 366385647438, 322472596963567348892485, 23460611459991110,
     297717285196, 86059624251724, 4850181447480856147, 84960044270930, 20633724250309701,
     19518819459744837, 1128354372, 1536361995923751194446, 6004778599218825029]
  | .osop =>
    [1163413844, 5129559, 19220920594813765, 78363092143702, 357828745038]
  | .strlib =>
    [91621622501465, 23455135360375090, 23455135360375128, 6004514652256032818, 4779256341578601554,
     6004514579006313554, 1537155732225616269912, 23455135460903252, 91621623614800, 91621622568272,
     84985915919171, 91621622497620, 23455135359390787, 91621622500688, 91621623088462,
     317861636884510895461458, 331917905842514987013202, 1352256248358727013458, 1259372054724746630226,
     5064663146384867666, 73977612616020, 80600771023954, 24575537726051410, 21479295852696658,
     6146374789076571218, 23157094845994066, 5652812]
  | .sysio =>
    [1204536221186593999941, 5067188694579498053, 4542278, 1162824782, 19783840298979155,
     5064663116588603973, 1397048651, 23438586984877894, 6000278268128742478, 308490902551024791800901,
     353350403412, 90457703273554, 23157189435282501, 5928240495432320338, 71813199908420,
     1241430558165579680837, 90457401216078, 90457401217095, 23157094710659406, 23157094711119444,
     23157094710724690, 23157094711776338, 90457401217612, 24578797873744974, 24578797873745991,
     6292172255678056782, 6292172255678516820, 1610796097453935252036, 1610796097453750701639,
     412363800948198784060999, 6292172255678122066, 6292172255679173714, 24578797873746508, 301928371016,
     288975243602, 78363092076882, 331975248210, 353483639122, 22324781756205394, 23157094710790482,
     5064663116421154383, 1517629556956275689810, 4849338117834164562]
  | _ => []

theorem fnames_inj : ∀ o ∈ Op.all, ∀ p ∈ functions o, ∀ q ∈ functions o, letters p.2 = letters q.2 → p.1 = q.1 := by
  intro o ho p hp q hq h
  have k1 : ∀ o ∈ Op.all, (functions o).map (fun p => textKey (letters p.2)) = fnKeys o := by decide +kernel
  have k2 : ∀ o ∈ Op.all, (fnKeys o).Nodup := by decide +kernel
  rw [inj_of_keys (fun p : Nat × String => textKey (letters p.2)) (k1 o ho) (k2 o ho) p hp q hq (congrArg textKey h)]

theorem blank1 : (letters " " : List Byte) = [32#8] := by decide +kernel
theorem newline1 : (letters "\n" : List Byte) = [10#8] := by decide +kernel

theorem named_inj {s s' : String} {r r' : List Byte} (hs : ∀ b ∈ letters s, b ≠ 32#8)
    (hs' : ∀ b ∈ letters s', b ≠ 32#8)
    (h : letters "        " ++ letters s ++ letters " " ++ r = letters "        " ++ letters s' ++ letters " " ++ r') :
    letters s = letters s' ∧ r = r' := by
  simp only [List.append_assoc, List.append_cancel_left_eq] at h
  obtain ⟨h1, h2⟩ := span_inj (P := fun b => b ≠ 32#8) hs hs' (by simp [blank1]) (by simp [blank1]) h
  exact ⟨h1, by simpa using h2⟩

theorem decimal_head {l r : List Byte} {n : Nat} (h : Decimal l n) (b : Byte) (hb : (l ++ r).head? = some b) :
    b ≠ 32#8 := by
  cases l with
  | nil => exact absurd rfl h.nonempty
  | cons c l =>
    simp only [List.cons_append, List.head?_cons, Option.some.injEq] at hb
    subst hb
    rintro rfl
    have := h.digits 32#8 (by simp)
    simp at this

theorem decimalInt_head {l r : List Byte} {n : Int} (h : DecimalInt l n) (b : Byte)
    (hb : (l ++ r).head? = some b) : b ≠ 32#8 := by
  obtain ⟨h1, h2⟩ := decimalInt_chars h
  cases l with
  | nil => exact absurd rfl h1
  | cons c l =>
    simp only [List.cons_append, List.head?_cons, Option.some.injEq] at hb
    subst hb
    rintro rfl
    have := h2 32#8 (by simp)
    simp at this

theorem address_head {l r : List Byte} {a : Word} (h : Address l a) (b : Byte)
    (hb : (l ++ r).head? = some b) : b ≠ 32#8 := by
  obtain ⟨x, rfl, -⟩ := h
  have : letters "0x" = [48#8, 120#8] := by decide +kernel
  simp only [this, List.cons_append, List.head?_cons, Option.some.injEq] at hb
  subst hb
  decide

theorem operands_head {o : Op} {a1 : Byte} {a2 : Word} {l r : List Byte} (h : Operands o a1 a2 l)
    (hr : ∀ b, r.head? = some b → b ≠ 32#8) (b : Byte) (hb : (l ++ r).head? = some b) : b ≠ 32#8 := by
  have fn : ∀ c s bl, (c, s) ∈ functions o → l = letters s ++ bl → b ≠ 32#8 := by
    intro c s bl hs hl
    subst hl
    obtain ⟨h1, h2⟩ := fnames_blank o o.mem_all _ hs
    dsimp only at h1 h2
    generalize letters s = x at *
    cases x with
    | nil => exact absurd rfl h1
    | cons y x =>
      simp only [List.cons_append, List.head?_cons, Option.some.injEq] at hb
      subst hb
      exact h2 _ (by simp)
  generalize hk : kind o = k
  cases k <;> simp only [Operands, hk] at h
  · subst h; exact hr b hb
  · exact decimalInt_head h b hb
  · exact decimal_head h b hb
  · exact address_head h b hb
  · exact decimal_head h b hb
  · exact decimalInt_head h b hb
  · obtain ⟨x, y, rfl, hx, _⟩ := h
    rw [List.append_assoc, List.append_assoc] at hb
    exact decimal_head hx b hb
  · obtain ⟨x, y, rfl, hx, _⟩ := h
    rw [List.append_assoc, List.append_assoc] at hb
    exact decimal_head hx b hb
  · obtain ⟨s, bl, hs, hl, _⟩ := h; exact fn _ s bl hs hl
  · obtain ⟨s, bl, hs, hl, _⟩ := h; exact fn _ s bl hs hl

theorem address_det {l : List Byte} {a b : Word} (h : Address l a) (h' : Address l b) : a = b := by
  obtain ⟨x, rfl, hx⟩ := h
  obtain ⟨y, hy, hy'⟩ := h'
  rw [List.append_cancel_left_eq] at hy
  subst hy
  exact BitVec.eq_of_toNat_eq (hex_det hx hy')

theorem sep_inj {x y x' y' : List Byte} {n m : Nat} (hx : Decimal x n) (hx' : Decimal x' m)
    (h : x ++ letters ", " ++ y = x' ++ letters ", " ++ y') : x = x' ∧ y = y' := by
  rw [List.append_assoc, List.append_assoc] at h
  have hsep : letters ", " = [44#8, 32#8] := by decide +kernel
  obtain ⟨h1, h2⟩ := span_inj (P := fun b => 48 ≤ b.toNat ∧ b.toNat ≤ 57) hx.digits hx'.digits
    (by simp [hsep]) (by simp [hsep]) h
  exact ⟨h1, by simpa using h2⟩

theorem operands_det {o : Op} {a1 b1 : Byte} {a2 b2 : Word} {l : List Byte}
    (h : Operands o a1 a2 l) (h' : Operands o b1 b2 l)
    (u1 : hasArg8 o.toByte = false → a1 = 0#8 ∧ b1 = 0#8) (u2 : hasArg16 o.toByte = false → a2 = 0#16 ∧ b2 = 0#16) :
    a1 = b1 ∧ a2 = b2 := by
  have z1 : hasArg8 o.toByte = false → a1 = b1 := fun h => (u1 h).1.trans (u1 h).2.symm
  have z2 : hasArg16 o.toByte = false → a2 = b2 := fun h => (u2 h).1.trans (u2 h).2.symm
  have fn : ∀ {c d s s' bl bl'}, (c, s) ∈ functions o → (d, s') ∈ functions o →
      letters s ++ bl = letters s' ++ bl' → Blank bl → Blank bl' → c = d := by
    intro c d s s' bl bl' hs hs' he hb hb'
    have h1 := fnames_blank o o.mem_all _ hs
    have h2 := fnames_blank o o.mem_all _ hs'
    refine fnames_inj o o.mem_all _ hs _ hs' (span_inj (P := fun b => b ≠ 32#8) h1.2 h2.2 ?_ ?_ he).1
    · intro b hbb; rw [hb b (List.mem_of_mem_head? (by simp [hbb]))]; simp
    · intro b hbb; rw [hb' b (List.mem_of_mem_head? (by simp [hbb]))]; simp
  generalize hk : kind o = k
  cases k with
  | none =>
    obtain ⟨_, _, _, _, _, e4, e5, _⟩ := agree_op o (f := .noarg8) (g := .noarg16) (a := false) (b := false) (by rw [hk]; rfl)
    exact ⟨z1 e4, z2 e5⟩
  | signed8 =>
    obtain ⟨_, _, _, _, _, e4, e5, _⟩ := agree_op o (f := .shortint) (g := .noarg16) (a := true) (b := false) (by rw [hk]; rfl)
    simp only [Operands, hk] at h h'
    exact ⟨BitVec.eq_of_toInt_eq (decimalInt_det h h'), z2 e5⟩
  | unsigned8 =>
    obtain ⟨_, _, _, _, _, e4, e5, _⟩ := agree_op o (f := .shortword) (g := .noarg16) (a := true) (b := false) (by rw [hk]; rfl)
    simp only [Operands, hk] at h h'
    exact ⟨BitVec.eq_of_toNat_eq (decimal_det h h'), z2 e5⟩
  | target =>
    obtain ⟨_, _, _, _, _, e4, e5, _⟩ := agree_op o (f := .noarg8) (g := .hex) (a := false) (b := true) (by rw [hk]; rfl)
    simp only [Operands, hk] at h h'
    exact ⟨z1 e4, address_det h h'⟩
  | unsigned16 =>
    obtain ⟨_, _, _, _, _, e4, e5, _⟩ := agree_op o (f := .noarg8) (g := .udecimal) (a := false) (b := true) (by rw [hk]; rfl)
    simp only [Operands, hk] at h h'
    exact ⟨z1 e4, BitVec.eq_of_toNat_eq (decimal_det h h')⟩
  | signed16 =>
    obtain ⟨_, _, _, _, _, e4, e5, _⟩ := agree_op o (f := .noarg8) (g := .decimal) (a := false) (b := true) (by rw [hk]; rfl)
    simp only [Operands, hk] at h h'
    exact ⟨z1 e4, BitVec.eq_of_toInt_eq (decimalInt_det h h')⟩
  | levelTarget =>
    simp only [Operands, hk] at h h'
    obtain ⟨x, y, rfl, hx, hy⟩ := h
    obtain ⟨x', y', he, hx', hy'⟩ := h'
    obtain ⟨rfl, rfl⟩ := sep_inj hx hx' he
    exact ⟨BitVec.eq_of_toNat_eq (decimal_det hx hx'), address_det hy hy'⟩
  | levelOffset =>
    simp only [Operands, hk] at h h'
    obtain ⟨x, y, rfl, hx, hy⟩ := h
    obtain ⟨x', y', he, hx', hy'⟩ := h'
    obtain ⟨rfl, rfl⟩ := sep_inj hx hx' he
    exact ⟨BitVec.eq_of_toNat_eq (decimal_det hx hx'), BitVec.eq_of_toInt_eq (decimalInt_det hy hy')⟩
  | function8 =>
    have e5 : hasArg16 o.toByte = false := by revert hk; cases o <;> simp [kind] <;> decide +kernel
    simp only [Operands, hk] at h h'
    obtain ⟨s, bl, hs, rfl, hb⟩ := h
    obtain ⟨s', bl', hs', he, hb'⟩ := h'
    exact ⟨BitVec.eq_of_toNat_eq (fn hs hs' he hb hb'), z2 e5⟩
  | function16 =>
    have e4 : hasArg8 o.toByte = false := by revert hk; cases o <;> simp [kind] <;> decide +kernel
    simp only [Operands, hk] at h h'
    obtain ⟨s, bl, hs, rfl, hb⟩ := h
    obtain ⟨s', bl', hs', he, hb'⟩ := h'
    exact ⟨z1 e4, BitVec.eq_of_toNat_eq (fn hs hs' he hb hb')⟩
  | long => simp [Operands, hk] at h
  | label => simp [Operands, hk] at h
  | source => simp [Operands, hk] at h

theorem head8 (r : List Byte) : (letters "        " ++ r).head? = some 32#8 := by
  have : letters "        " = 32#8 :: letters "       " := by decide +kernel
  rw [this]; rfl

theorem headL (r : List Byte) : (letters "L" ++ r).head? = some 76#8 := by
  have : letters "L" = [76#8] := by decide +kernel
  rw [this]; rfl

theorem headS (r : List Byte) : (letters "; LINE" ++ r).head? = some 59#8 := by
  have : letters "; LINE" = 59#8 :: letters " LINE" := by decide +kernel
  rw [this]; rfl

theorem heads {r s : List Byte} {a b : Byte} (hr : r.head? = some a) (hs : s.head? = some b) (hab : a ≠ b)
    (h : r = s) : False := by
  rw [h, hs] at hr; injection hr with hr; exact hab hr.symm

theorem unused_op {o : Op} {a1 b1 : Byte} {a2 b2 : Word} (hi : Proper ⟨o.toByte, a1, a2⟩)
    (hj : Proper ⟨o.toByte, b1, b2⟩) : (hasArg8 o.toByte = false → a1 = 0#8 ∧ b1 = 0#8) ∧
      (hasArg16 o.toByte = false → a2 = 0#16 ∧ b2 = 0#16) :=
  ⟨fun h => ⟨hi.unused8 h, hj.unused8 h⟩, fun h => ⟨hi.unused16 h, hj.unused16 h⟩⟩

theorem line_det_aux {i j : OpType} {l l' : List Byte} (hi : Proper i) (hj : Proper j) (h : Line i l)
    (h' : Line j l') (e : l = l') : i = j := by
  have hblank : ∀ {bl : List Byte}, Blank bl → ∀ b ∈ bl, b = 32#8 := fun h => h
  cases h with
  | @insn o a1 a2 bl args hb ha =>
    cases h' with
    | @insn o' b1 b2 bl' args' hb' ha' =>
      have e' := e
      simp only [List.append_assoc] at e'
      rw [← List.append_assoc, ← List.append_assoc, ← List.append_assoc (letters "        "),
        ← List.append_assoc (letters "        " ++ letters (mnemonic o'))] at e'
      obtain ⟨h1, h2⟩ := named_inj (names_blank o o.mem_all) (names_blank o' o'.mem_all) e'
      have ho := names_inj o o.mem_all o' o'.mem_all h1
      subst ho
      have hnl : ∀ b, (letters "\n" : List Byte).head? = some b → b ≠ 32#8 := by
        rw [newline1]; intro b hb; simp at hb; subst hb; decide
      obtain ⟨_, h3⟩ := span_inj (P := fun b => b = 32#8) hb hb' (operands_head ha hnl)
        (operands_head ha' hnl) h2
      rw [List.append_cancel_right_eq] at h3
      subst h3
      obtain ⟨u1, u2⟩ := unused_op hi hj
      obtain ⟨rfl, rfl⟩ := operands_det ha ha' u1 u2
      rfl
    | @long s b1 b2 bl' hb' hs h1 =>
      exfalso
      have e' := e
      simp only [List.append_assoc] at e'
      rw [← List.append_assoc, ← List.append_assoc, ← List.append_assoc (letters "        "),
        ← List.append_assoc (letters "        " ++ letters s)] at e'
      have hm := List.mem_of_getElem? hs
      exact names_long o o.mem_all s hm (named_inj (names_blank o o.mem_all) (longNames_blank s hm) e').1
    | label =>
      simp only [List.append_assoc] at e
      exact (heads (head8 _) (headL _) (by decide) e).elim
    | source =>
      simp only [List.append_assoc] at e
      exact (heads (head8 _) (headS _) (by decide) e).elim
  | @long s a1 a2 bl hb hs h1 =>
    have hm := List.mem_of_getElem? hs
    cases h' with
    | @insn o' b1 b2 bl' args' hb' ha' =>
      exfalso
      have e' := e
      simp only [List.append_assoc] at e'
      rw [← List.append_assoc, ← List.append_assoc, ← List.append_assoc (letters "        "),
        ← List.append_assoc (letters "        " ++ letters (mnemonic o'))] at e'
      exact names_long o' o'.mem_all s hm (named_inj (longNames_blank s hm) (names_blank o' o'.mem_all) e').1.symm
    | @long s' b1 b2 bl' hb' hs' h1' =>
      have hm' := List.mem_of_getElem? hs'
      have e' := e
      simp only [List.append_assoc] at e'
      rw [← List.append_assoc, ← List.append_assoc, ← List.append_assoc (letters "        "),
        ← List.append_assoc (letters "        " ++ letters s')] at e'
      obtain ⟨h2, _⟩ := named_inj (longNames_blank s hm) (longNames_blank s' hm') e'
      have hlen : longNames.length = 41 := by decide +kernel
      have l1 := (List.getElem?_eq_some_iff.mp hs).1
      have l2 := (List.getElem?_eq_some_iff.mp hs').1
      have := longNames_inj _ (hlen ▸ l1) _ (hlen ▸ l2) (by rw [hs, hs']; simp [h2])
      have h3 : a1 = b1 := BitVec.eq_of_toNat_eq (by omega)
      obtain ⟨u1, u2⟩ := unused_op hi hj
      have h16 : hasArg16 Op.longop8.toByte = false := by decide +kernel
      rw [h3, (u2 h16).1, (u2 h16).2]
    | label =>
      simp only [List.append_assoc] at e
      exact (heads (head8 _) (headL _) (by decide) e).elim
    | source =>
      simp only [List.append_assoc] at e
      exact (heads (head8 _) (headS _) (by decide) e).elim
  | @label a1 a2 h bl hb hh =>
    cases h' with
    | insn =>
      simp only [List.append_assoc] at e
      exact (heads (headL _) (head8 _) (by decide) e).elim
    | long =>
      simp only [List.append_assoc] at e
      exact (heads (headL _) (head8 _) (by decide) e).elim
    | @label b1 b2 g bl' hb' hh' =>
      simp only [List.append_assoc, List.append_cancel_left_eq] at e
      have hc : letters ":" = [58#8] := by decide +kernel
      obtain ⟨rfl, _⟩ := span_inj (P := fun b => (48 ≤ b.toNat ∧ b.toNat ≤ 57) ∨ (97 ≤ b.toNat ∧ b.toNat ≤ 102))
        hh.digits hh'.digits (by simp [hc]) (by simp [hc]) e
      obtain ⟨u1, _⟩ := unused_op (o := .label) hi hj
      have h8 : hasArg8 Op.label.toByte = false := by decide +kernel
      rw [(u1 h8).1, (u1 h8).2, BitVec.eq_of_toNat_eq (hex_det hh hh')]
    | source =>
      simp only [List.append_assoc] at e
      exact (heads (headL _) (headS _) (by decide) e).elim
  | @source a1 a2 x y bl hb hx hy =>
    cases h' with
    | insn =>
      simp only [List.append_assoc] at e
      exact (heads (headS _) (head8 _) (by decide) e).elim
    | long =>
      simp only [List.append_assoc] at e
      exact (heads (headS _) (head8 _) (by decide) e).elim
    | label =>
      simp only [List.append_assoc] at e
      exact (heads (headS _) (headL _) (by decide) e).elim
    | @source b1 b2 x' y' bl' hb' hx' hy' =>
      simp only [List.append_assoc, List.append_cancel_left_eq] at e
      have hc : letters ":" = [58#8] := by decide +kernel
      obtain ⟨_, e⟩ := span_inj (P := fun b => b = 32#8) hb hb' (decimal_head hx) (decimal_head hx') e
      obtain ⟨rfl, e⟩ := span_inj (P := fun b => 48 ≤ b.toNat ∧ b.toNat ≤ 57) hx.digits hx'.digits
        (by simp [hc]) (by simp [hc]) e
      simp only [List.append_cancel_left_eq, List.append_cancel_right_eq] at e
      subst e
      rw [BitVec.eq_of_toNat_eq (decimal_det hx hx'), BitVec.eq_of_toNat_eq (decimal_det hy hy')]

/-! ### Lines end with their only newline -/

/-- No character of the text is a newline. -/
def NoNl (l : List Byte) : Prop := ∀ b ∈ l, b ≠ 10#8

theorem noNl_append {a b : List Byte} (ha : NoNl a) (hb : NoNl b) : NoNl (a ++ b) := by
  intro c hc
  rcases List.mem_append.mp hc with h | h
  · exact ha c h
  · exact hb c h

theorem noNl_blank {l : List Byte} (h : Blank l) : NoNl l := by
  intro b hb; rw [h b hb]; decide

theorem noNl_decimal {l : List Byte} {n : Nat} (h : Decimal l n) : NoNl l := by
  intro b hb; have := h.digits b hb; rintro rfl; simp at this

theorem noNl_decimalInt {l : List Byte} {n : Int} (h : DecimalInt l n) : NoNl l := by
  intro b hb; have := (decimalInt_chars h).2 b hb; rintro rfl; simp at this

theorem noNl_hex {l : List Byte} {w n : Nat} (h : Hex l w n) : NoNl l := by
  intro b hb; have := h.digits b hb; rintro rfl; simp at this

instance (l : List Byte) : Decidable (NoNl l) := inferInstanceAs (Decidable (∀ b ∈ l, b ≠ 10#8))

theorem noNl_address {l : List Byte} {a : Word} (h : Address l a) : NoNl l := by
  obtain ⟨x, rfl, hx⟩ := h
  exact noNl_append (by decide +kernel) (noNl_hex hx)

theorem noNl_names : ∀ o ∈ Op.all, NoNl (letters (mnemonic o)) ∧ ∀ p ∈ functions o, NoNl (letters p.2) := by
  intro o ho
  refine ⟨fun b hb => (solid_mem (List.all_eq_true.mp names_solid o ho) hb).2, fun p hp b hb => ?_⟩
  have := List.all_eq_true.mp (List.all_eq_true.mp fnames_solid o ho) p hp
  rw [Bool.and_eq_true] at this
  exact (solid_mem this.2 hb).2
theorem noNl_longNames : ∀ s ∈ longNames, NoNl (letters s) := fun s hs _ hb =>
  (solid_mem (List.all_eq_true.mp longNames_solid s hs) hb).2

theorem noNl_operands {o : Op} {a1 : Byte} {a2 : Word} {l : List Byte} (h : Operands o a1 a2 l) : NoNl l := by
  have hsep : NoNl (letters ", ") := by decide +kernel
  generalize hk : kind o = k
  cases k <;> simp only [Operands, hk] at h
  · subst h; intro b hb; simp at hb
  · exact noNl_decimalInt h
  · exact noNl_decimal h
  · exact noNl_address h
  · exact noNl_decimal h
  · exact noNl_decimalInt h
  · obtain ⟨x, y, rfl, hx, hy⟩ := h
    exact noNl_append (noNl_append (noNl_decimal hx) hsep) (noNl_address hy)
  · obtain ⟨x, y, rfl, hx, hy⟩ := h
    exact noNl_append (noNl_append (noNl_decimal hx) hsep) (noNl_decimalInt hy)
  · obtain ⟨s, bl, hs, rfl, hb⟩ := h
    exact noNl_append ((noNl_names o o.mem_all).2 _ hs) (noNl_blank hb)
  · obtain ⟨s, bl, hs, rfl, hb⟩ := h
    exact noNl_append ((noNl_names o o.mem_all).2 _ hs) (noNl_blank hb)

theorem line_newline {i : OpType} {l : List Byte} (h : Line i l) : ∃ body, l = body ++ [10#8] ∧ NoNl body := by
  have h8 : NoNl (letters "        ") := by decide +kernel
  have h1 : NoNl (letters " ") := by decide +kernel
  have hL : NoNl (letters "L") := by decide +kernel
  have hc : NoNl (letters ":") := by decide +kernel
  have hS : NoNl (letters "; LINE") := by decide +kernel
  cases h with
  | @insn o a1 a2 bl args hb ha =>
    exact ⟨_, by rw [newline1], noNl_append (noNl_append (noNl_append (noNl_append h8 (noNl_names o o.mem_all).1) h1)
      (noNl_blank hb)) (noNl_operands ha)⟩
  | @long s a1 a2 bl hb hs _ =>
    exact ⟨_, by rw [newline1], noNl_append (noNl_append (noNl_append h8 (noNl_longNames s (List.mem_of_getElem? hs))) h1)
      (noNl_blank hb)⟩
  | label hb hh =>
    exact ⟨_, by rw [newline1], noNl_append (noNl_append (noNl_append hL (noNl_hex hh)) hc) (noNl_blank hb)⟩
  | source hb hx hy =>
    exact ⟨_, by rw [newline1], noNl_append (noNl_append (noNl_append (noNl_append (noNl_append hS h1) (noNl_blank hb))
      (noNl_decimal hx)) hc) (noNl_decimal hy)⟩

/-! ### Reading a program back -/

theorem encoded_eq (i : OpType) : encoded i = opBytes i := by
  have e1 : BitVec.ofNat 8 (i.arg2.toNat / 256) = hiByte i.arg2 := by
    apply BitVec.eq_of_toNat_eq
    simp [hiByte, Nat.shiftRight_eq_div_pow]
  have e2 : BitVec.ofNat 8 (i.arg2.toNat % 256) = loByte i.arg2 := by
    apply BitVec.eq_of_toNat_eq
    simp only [loByte, BitVec.toNat_setWidth, BitVec.toNat_and, BitVec.toNat_ofNat]
    have : i.arg2.toNat &&& 255 = i.arg2.toNat % 256 := Nat.and_two_pow_sub_one_eq_mod _ 8
    simp [this]
  simp only [encoded, opBytes, e1, e2, List.singleton_append, List.append_assoc, List.cons_append, List.nil_append]

theorem hilo (w : Word) : hiByte w ++ loByte w = w := by
  apply BitVec.eq_of_toNat_eq
  rw [BitVec.toNat_append, ← Nat.shiftLeft_add_eq_or_of_lt (by exact (loByte w).isLt)]
  have e1 : (hiByte w).toNat = w.toNat / 256 := by
    have := w.isLt
    simp only [hiByte, BitVec.toNat_setWidth, BitVec.toNat_ushiftRight, Nat.shiftRight_eq_div_pow]
    omega
  have e2 : (loByte w).toNat = w.toNat % 256 := by
    simp only [loByte, BitVec.toNat_setWidth, BitVec.toNat_and, BitVec.toNat_ofNat]
    have : w.toNat &&& 255 = w.toNat % 256 := Nat.and_two_pow_sub_one_eq_mod _ 8
    simp [this]
  rw [e1, e2, Nat.shiftLeft_eq]
  omega

theorem fetch_encoded {i : OpType} (h1 : hasArg8 i.op = false → i.arg1 = 0#8)
    (h2 : hasArg16 i.op = false → i.arg2 = 0#16) (rest : List Byte) :
    fetch (encoded i ++ rest) = some (i, (encoded i).length, rest) := by
  obtain ⟨op, a1, a2⟩ := i
  rw [encoded_eq]
  dsimp only at h1 h2
  cases e1 : hasArg8 op <;> cases e2 : hasArg16 op <;>
    simp_all [fetch, opBytes, getByte, eofByte, hilo]

theorem encoded_pos (i : OpType) : 0 < (encoded i).length := by simp [encoded]

/-! ### The whole listing -/

theorem bind_inv {α β : Type} {x : Res α} {f : α → Res β} {b : β} (h : (x >>= f) = .ok b) :
    ∃ a, x = .ok a ∧ f a = .ok b := by
  cases x with
  | ok a => exact ⟨a, rfl, h⟩
  | ub => cases h
  | hang => cases h

theorem findLine_index {t : List Poff.LineEntry} {prev off i : Nat} {e : Poff.LineEntry}
    (h : Poff.findLine t prev off = .ok (some e, i)) : t[i]? = some e := by
  unfold Poff.findLine at h
  split at h
  · simp at h
  · obtain ⟨p, _, h⟩ := bind_inv h
    dsimp only at h
    obtain ⟨j, _, h⟩ := bind_inv h
    obtain ⟨e', he', h⟩ := bind_inv h
    split at h
    · cases h
    · injection h with h; injection h with h3 h4; injection h3 with h3
      subst h3 h4
      unfold Poff.lineAt at he'
      split at he'
      · rename_i hx; rw [hx]; injection he' with he'; rw [he']
      · cases he'

theorem lookups_snoc {t : List Poff.LineEntry} : ∀ {os : List Nat} {p rs q o r q'},
    lookups t p os = .ok (rs, q) → Poff.findLine t q o = .ok (r, q') →
    lookups t p (os ++ [o]) = .ok (rs ++ [r], q')
  | [], p, rs, q, o, r, q', h, hf => by
    simp only [lookups, Res.ok.injEq, Prod.mk.injEq] at h
    obtain ⟨rfl, rfl⟩ := h
    simp [lookups, hf]
  | o' :: os, p, rs, q, o, r, q', h, hf => by
    unfold lookups at h
    obtain ⟨x, hx, h⟩ := bind_inv h
    obtain ⟨y, hy, h⟩ := bind_inv h
    obtain ⟨ys, yq⟩ := y
    injection h with h
    injection h with h3 h4
    subst h3 h4
    have := lookups_snoc hy hf
    simp [lookups, hx, this]

/-- Looking up an address that the table covers. -/
theorem findLine_ok {t : List Poff.LineEntry} (hs : SortedLines t) {os : List Nat}
    {rs : List (Option Poff.LineEntry)} {prev : Nat} (hist : lookups t 0 os = .ok (rs, prev)) (off : Nat)
    (hc : t.length ≤ 1 ∨ ∃ e, t.getLast? = some e ∧ off < e.offset) :
    ∃ r prev', Poff.findLine t prev off = .ok (r, prev') ∧
      ((∃ e, r = some e ∧ LineFor t off e ∧ t[prev']? = some e) ∨ (r = none ∧ ∀ f ∈ t, off < f.offset)) := by
  rcases hc with hc | hc
  · match t, hc with
    | [], _ => exact ⟨none, prev, by simp [Poff.findLine], .inr ⟨rfl, by simp⟩⟩
    | [e], _ =>
      refine ⟨_, _, Props.C41_single e os hist off, ?_⟩
      by_cases h : e.offset ≤ off
      · exact .inl ⟨e, by simp [h], ⟨by simp, h, by simp⟩, rfl⟩
      · exact .inr ⟨by simp [h], by simp; omega⟩
    | _ :: _ :: _, hc => simp at hc
  · obtain ⟨r, p', h1, h2⟩ := Props.C41_lookup_partial t hs hist off hc
    refine ⟨r, p', h1, ?_⟩
    rcases h2 with ⟨e, rfl, h2⟩ | h2
    · exact .inl ⟨e, rfl, h2, findLine_index h1⟩
    · exact .inr h2

theorem lineFor_unique {t : List Poff.LineEntry} (hs : StrictLines t) {a : Nat} {e e' : Poff.LineEntry}
    (h : LineFor t a e) (h' : LineFor t a e') : e = e' := by
  obtain ⟨i, hi⟩ := List.getElem?_of_mem h.1
  obtain ⟨j, hj⟩ := List.getElem?_of_mem h'.1
  have h1 := h.2.2 e' h'.1 h'.2.1
  have h2 := h'.2.2 e h.1 h.2.1
  rcases Nat.lt_trichotomy i j with hl | hl | hl
  · have := hs i j e e' hl hi hj; omega
  · subst hl; rw [hi] at hj; injection hj
  · have := hs j i e' e hl hj hi; omega

theorem strict_index {t : List Poff.LineEntry} (hs : StrictLines t) {i j : Nat} {e : Poff.LineEntry}
    (hi : t[i]? = some e) (hj : t[j]? = some e) : i = j := by
  rcases Nat.lt_trichotomy i j with hl | hl | hl
  · have := hs i j e e hl hi hj; omega
  · exact hl
  · have := hs j i e e hl hj hi; omega

theorem sorted_of_strict {t : List Poff.LineEntry} (hs : StrictLines t) : SortedLines t :=
  fun i j a b h hi hj => Nat.le_of_lt (hs i j a b h hi hj)

theorem heading_ok {e : Poff.LineEntry} (h : e.lineno < 2 ^ 31) : Heading e (heading e) := by
  have h2 : (BitVec.ofNat 32 e.lineno).toInt = (e.lineno : Int) := by
    rw [BitVec.toInt_eq_toNat_cond]; simp; omega
  refine ⟨fmtU e.lineno, decimal_fmtU (by omega), ?_⟩
  rw [heading, h2, fmtD_nat, newline1]; rfl

theorem dumpLoop_listing {t : List Poff.LineEntry} (hs : StrictLines t) (hl : ∀ e ∈ t, e.lineno < 2 ^ 31)
    {n : Nat} (hn : n < 2 ^ 32) (hc : t.length ≤ 1 ∨ ∃ e, t.getLast? = some e ∧ n ≤ e.offset) :
    ∀ (is : List OpType) (fuel a prev : Nat) (last : Option Nat) (lastE : Option Poff.LineEntry) (os rs),
      (∀ i ∈ is, Proper i) → (is.flatMap encoded).length < fuel → a + (is.flatMap encoded).length = n →
      lookups t 0 os = .ok (rs, prev) → last.map (t[·]?) = lastE.map some →
      ∃ text, dumpLoop t fuel (is.flatMap encoded) (BitVec.ofNat 32 a) prev last = .ok text ∧
        Listing t lastE a is text := by
  intro is
  induction is with
  | nil =>
    intro fuel a prev last lastE os rs hp hf ha hist hlast
    obtain ⟨fuel, rfl⟩ : ∃ k, fuel = k + 1 := ⟨fuel - 1, by simp at hf; omega⟩
    exact ⟨[], by simp [dumpLoop, fetch], .nil⟩
  | cons i is ih =>
    intro fuel a prev last lastE os rs hp hf ha hist hlast
    obtain ⟨fuel, rfl⟩ : ∃ k, fuel = k + 1 := ⟨fuel - 1, by omega⟩
    have hi := hp i (by simp)
    have hpos := encoded_pos i
    simp only [List.flatMap_cons, List.length_append] at hf ha
    have hpc : (BitVec.ofNat 32 a).toNat = a := by simp; omega
    have hnext : BitVec.ofNat 32 a + BitVec.ofNat 32 (encoded i).length = BitVec.ofNat 32 (a + (encoded i).length) := by
      apply BitVec.eq_of_toNat_eq; simp
    have hfetch := fetch_encoded hi.unused8 hi.unused16 (is.flatMap encoded)
    obtain ⟨l, hl1, hl2⟩ := line_proper hi
    have hhex : Hex (hexN 8 a) 8 a := hex_hexN 8 a (by omega)
    obtain ⟨r, p', h1, h2⟩ := findLine_ok (sorted_of_strict hs) hist a (by
      rcases hc with hc | ⟨e, he, hc⟩
      · exact .inl hc
      · exact .inr ⟨e, he, by omega⟩)
    have hist' := lookups_snoc hist h1
    rcases h2 with ⟨e, rfl, h2, h3⟩ | ⟨rfl, h2⟩
    · by_cases hsame : last = some p'
      · subst hsame
        have hE : lastE = some e := by
          cases lastE with
          | none => simp at hlast
          | some x => simp [h3] at hlast; rw [hlast]
        subst hE
        obtain ⟨text, ht1, ht2⟩ := ih fuel (a + (encoded i).length) p' (some p') (some e) _ _
          (fun j hj => hp j (by simp [hj])) (by omega) (by omega) hist' hlast
        refine ⟨_, ?_, .same h2 hhex hl2 ht2⟩
        simp only [dumpLoop, List.flatMap_cons, hfetch, hpc, h1, Res.ok_bind, if_true, hl1, hnext, ht1,
          List.nil_append, txt_eq]
      · obtain ⟨text, ht1, ht2⟩ := ih fuel (a + (encoded i).length) p' (some p') (some e) _ _
          (fun j hj => hp j (by simp [hj])) (by omega) (by omega) hist' (by simp [h3])
        refine ⟨_, ?_, .next h2 ?_ (heading_ok (hl e h2.1)) hhex hl2 ht2⟩
        · simp only [dumpLoop, List.flatMap_cons, hfetch, hpc, h1, Res.ok_bind, hsame, if_false, hl1, hnext, ht1, txt_eq]
        · rintro rfl
          cases last with
          | none => simp at hlast
          | some x =>
            simp at hlast
            exact hsame (by rw [strict_index hs hlast h3])
    · obtain ⟨text, ht1, ht2⟩ := ih fuel (a + (encoded i).length) p' last lastE _ _
        (fun j hj => hp j (by simp [hj])) (by omega) (by omega) hist' hlast
      refine ⟨_, ?_, .first h2 hhex hl2 ht2⟩
      simp only [dumpLoop, List.flatMap_cons, hfetch, hpc, h1, Res.ok_bind, hl1, hnext, ht1, List.nil_append, txt_eq]

theorem tail_inj {h h' l l' r r' : List Byte} {i j : OpType} {a : Nat} (hh : Hex h 8 a) (hh' : Hex h' 8 a)
    (hl : Line i l) (hl' : Line j l') (e : h ++ letters " " ++ l ++ r = h' ++ letters " " ++ l' ++ r') :
    l = l' ∧ r = r' := by
  simp only [List.append_assoc] at e
  obtain ⟨_, e⟩ := List.append_inj e (hh.length.trans hh'.length.symm)
  rw [List.append_cancel_left_eq] at e
  obtain ⟨b, rfl, hb⟩ := line_newline hl
  obtain ⟨b', rfl, hb'⟩ := line_newline hl'
  simp only [List.append_assoc] at e
  obtain ⟨rfl, e⟩ := span_inj (P := fun b => b ≠ 10#8) hb hb' (by simp) (by simp) e
  exact ⟨rfl, by simpa using e⟩

theorem hex_ne {h r : List Byte} {n : Nat} (hh : Hex h 8 n) (e : h ++ r = []) : False := by
  have := hh.length
  simp at e
  rw [e.1] at this
  simp at this

theorem listing_det {t : List Poff.LineEntry} (hs : StrictLines t) :
    ∀ {is js : List OpType} {last : Option Poff.LineEntry} {a : Nat} {text text' : List Byte},
      (∀ i ∈ is, Proper i) → (∀ j ∈ js, Proper j) → Listing t last a is text → Listing t last a js text' →
      text = text' → is = js := by
  intro is
  induction is with
  | nil =>
    intro js last a text text' _ _ h h' e
    cases h
    cases h' with
    | nil => rfl
    | first _ hh => simp only [List.append_assoc] at e; exact (hex_ne hh e.symm).elim
    | same _ hh => simp only [List.append_assoc] at e; exact (hex_ne hh e.symm).elim
    | next _ _ hg hh =>
      simp only [List.append_assoc] at e
      exact (hex_ne hh (List.append_eq_nil_iff.mp e.symm).2).elim
  | cons i is ih =>
    intro js last a text text' hp hq h h' e
    cases js with
    | nil =>
      cases h'
      cases h with
      | first _ hh => simp only [List.append_assoc] at e; exact (hex_ne hh e).elim
      | same _ hh => simp only [List.append_assoc] at e; exact (hex_ne hh e).elim
      | next _ _ hg hh =>
        simp only [List.append_assoc] at e
        exact (hex_ne hh (List.append_eq_nil_iff.mp e).2).elim
    | cons j js =>
      have hp' := fun x (hx : x ∈ is) => hp x (by simp [hx])
      have hq' := fun x (hx : x ∈ js) => hq x (by simp [hx])
      have hpi := hp i (by simp)
      have hqj := hq j (by simp)
      cases h with
      | first he hh hl hr =>
        cases h' with
        | first he' hh' hl' hr' =>
          obtain ⟨e1, e2⟩ := tail_inj hh hh' hl hl' e
          have := line_det_aux hpi hqj hl hl' e1
          subst this
          rw [ih hp' hq' hr hr' e2]
        | same he' => have := he _ he'.1; have := he'.2.1; omega
        | next he' => have := he _ he'.1; have := he'.2.1; omega
      | same he hh hl hr =>
        cases h' with
        | first he' => have := he' _ he.1; have := he.2.1; omega
        | same he' hh' hl' hr' =>
          obtain ⟨e1, e2⟩ := tail_inj hh hh' hl hl' e
          have := line_det_aux hpi hqj hl hl' e1
          subst this
          rw [ih hp' hq' hr hr' e2]
        | next he' hn' => exact (hn' (by rw [lineFor_unique hs he he'])).elim
      | next he hn hg hh hl hr =>
        cases h' with
        | first he' => have := he' _ he.1; have := he.2.1; omega
        | same he' => exact (hn (by rw [lineFor_unique hs he he'])).elim
        | next he' hn' hg' hh' hl' hr' =>
          have := lineFor_unique hs he he'
          subst this
          obtain ⟨x, hx, rfl⟩ := hg
          obtain ⟨x', hx', rfl⟩ := hg'
          have := decimal_unique hx hx'
          subst this
          simp only [List.append_assoc, List.append_cancel_left_eq] at e
          obtain ⟨e1, e2⟩ := tail_inj hh hh' hl hl' (by simpa only [List.append_assoc] using e)
          have := line_det_aux hpi hqj hl hl' e1
          subst this
          rw [ih hp' hq' hr hr' e2]

/-- The disassembler looks at the operands of the opcode only. -/
theorem disassemble_unused (op : Byte) (a1 : Byte) (a2 : Word) :
    disassemble ⟨op, if hasArg8 op then a1 else 0#8, if hasArg16 op then a2 else 0#16⟩ = disassemble ⟨op, a1, a2⟩ := by
  have hlab : ∀ k < 256, ∀ info, opTable[k]? = some info → info.fmt16 = .labelDec →
      hasArg16 (BitVec.ofNat 8 k) = true := by
    intro k hk info h1 h2
    have : ((List.range 256).all fun k => match opTable[k]? with
      | some info => !(decide (info.fmt16 = .labelDec)) || hasArg16 (BitVec.ofNat 8 k)
      | none => true) = true := by decide +kernel
    simp only [List.all_eq_true, List.mem_range] at this
    have := this k hk
    simp [h1, h2] at this
    exact this
  unfold disassemble
  simp only
  generalize he : entry opTable op.toNat = e
  cases e with
  | ub => rfl
  | hang => rfl
  | ok info =>
    simp only [Res.ok_bind]
    have hi : indentText info.fmt16 (if hasArg16 op then a2 else 0#16) = indentText info.fmt16 a2 := by
      generalize hf : info.fmt16 = f
      cases f <;> try rfl
      have h16 : hasArg16 op = true := by
        have := hlab op.toNat op.isLt info (by
          unfold entry at he
          split at he
          · rename_i h; rw [h]; injection he with he; rw [he]
          · cases he) hf
        simpa using this
      simp [h16]
    rw [hi]
    cases e1 : hasArg8 op <;> cases e2 : hasArg16 op <;> simp

end Pas.Disasm
