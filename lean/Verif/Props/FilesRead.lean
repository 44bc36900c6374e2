import Verif.Lemmas.FilesReadExec
import Verif.Props.Files

/-! Property C65: reading text files. -/
namespace Pas
open Spec SysIo

/-- **C65**, integers: when a line follows that begins with the number `i` (blanks in front of it are
skipped), READ stores `i` in the variable.  Missing for the full property: the rest of the line is lost, so
that only one number per line can be read, the line has at most 254 characters, and -32768 cannot be read
(see the violations). -/
theorem C65_read_integer_partial (lib : Lib) (fpu : FloatOps.Fpu) (host : Host) (hlib : lib.sysIo = sysIo fpu host)
    (code : List Byte) (maxpc : Word) (s : VM) (hr : Room s 2) (hi : Insn code maxpc s .sysio 0 0x14#16)
    (he : (opnd s 0).toNat % 2 = 0) (hm : (opnd s 0).toNat / 2 < s.words)
    (f : HostFile) (pos : Nat) (ho : OpenIn s (opnd s 1) f pos)
    (line more : List Byte) (hl : LineComes s f pos line more) (hlen : line.length ≤ 254)
    (i : Int) (hb : BeginsWith line i) (h1 : -32767 ≤ i) (h2 : i ≤ 32767) :
    ∃ s', execute lib code maxpc s = .ok (eNOERROR, s') ∧
      DidRead s s' 2 (opnd s 1) f (pos + (line.length + 1)) true ∧
      s'.mem ((opnd s 0).toNat / 2) = BitVec.ofInt 16 i ∧
      ∀ j, j ≠ (opnd s 0).toNat / 2 → s'.mem j = s.mem j :=
  read_integer_did lib fpu host hlib code maxpc s hr hi he hm f pos ho line more hl hlen i hb h1 h2

/-- **C65**, characters: READ stores the next character.  Missing for the full property: the rest of the line
is lost (see the violations). -/
theorem C65_read_char_partial (lib : Lib) (fpu : FloatOps.Fpu) (host : Host) (hlib : lib.sysIo = sysIo fpu host)
    (code : List Byte) (maxpc : Word) (s : VM) (hr : Room s 2) (hi : Insn code maxpc s .sysio 0 0x15#16)
    (hm : (opnd s 0).toNat < 2 * s.words)
    (f : HostFile) (pos : Nat) (ho : OpenIn s (opnd s 1) f pos)
    (c : Byte) (line more : List Byte) (hl : LineComes s f pos (c :: line) more) (hlen : (c :: line).length ≤ 254) :
    ∃ s', execute lib code maxpc s = .ok (eNOERROR, s') ∧
      DidRead s s' 2 (opnd s 1) f (pos + ((c :: line).length + 1)) true ∧
      byte s'.mem (opnd s 0).toNat = c ∧
      ∀ a, a ≠ (opnd s 0).toNat → byte s'.mem a = byte s.mem a :=
  read_char_did lib fpu host hlib code maxpc s hr hi hm f pos ho c line more hl hlen

/-- **C65**, strings: READ of a string takes the whole line when the variable has room for it and its end.
The empty line is missing, see the violations. -/
theorem C65_read_string_partial (lib : Lib) (fpu : FloatOps.Fpu) (host : Host) (hlib : lib.sysIo = sysIo fpu host)
    (code : List Byte) (maxpc : Word) (s : VM) (hr : Room s 2) (hi : Insn code maxpc s .sysio 0 0x16#16)
    (hv : StrVar s (opnd s 0).toNat)
    (f : HostFile) (pos : Nat) (ho : OpenIn s (opnd s 1) f pos)
    (line more : List Byte) (hl : LineComes s f pos line more) (h0 : line ≠ [])
    (hlen : line.length + 2 ≤ strCap s.mem (opnd s 0).toNat) :
    ∃ s', execute lib code maxpc s = .ok (eNOERROR, s') ∧
      DidRead s s' 2 (opnd s 1) f (pos + (line.length + 1)) true ∧
      strVal s'.mem (opnd s 0).toNat = line ∧ OnlyString s.mem s'.mem (opnd s 0).toNat := by
  obtain ⟨t, ht, rfl, rfl⟩ := ho.isOpen
  have hl' : LineComes { s with sp := s.sp - 4#16 } t.file t.pos line more := ⟨hl.text, hl.oneLine, hl.noNul⟩
  obtain ⟨m, e1, e2, e3⟩ := readString_of (s := { s with sp := s.sp - 4#16 }) (v := opnd s 0) (l := line ++ [10#8])
    ho.number ho.mode ht ⟨hv.even, hv.fields, hv.buffer, hv.apart⟩ (fgets_line hl' hlen)
    (by simp; exact hlen)
    (by
      intro h
      rw [List.mem_append] at h
      rcases h with h | h
      · exact hl.noNul h
      · exact absurd (List.mem_singleton.mp h) (by decide))
    (checkEoln_line h0)
  rw [read_exec hlib hr hi (.inr (.inr ⟨rfl, rfl⟩)), e1]
  exact ⟨_, rfl, didRead_afterLine ho.number ho.mode m, e2, e3⟩

/-- **C65**, strings: of a line that is too long for the variable READ takes as many characters as fit; the
others can be read next. -/
theorem C65_read_string_long (lib : Lib) (fpu : FloatOps.Fpu) (host : Host) (hlib : lib.sysIo = sysIo fpu host)
    (code : List Byte) (maxpc : Word) (s : VM) (hr : Room s 2) (hi : Insn code maxpc s .sysio 0 0x16#16)
    (hv : StrVar s (opnd s 0).toNat)
    (f : HostFile) (pos : Nat) (ho : OpenIn s (opnd s 1) f pos)
    (line more : List Byte) (hl : LineComes s f pos line more) (h2 : 2 ≤ strCap s.mem (opnd s 0).toNat)
    (hlen : strCap s.mem (opnd s 0).toNat - 1 ≤ line.length) :
    ∃ s', execute lib code maxpc s = .ok (eNOERROR, s') ∧
      DidRead s s' 2 (opnd s 1) f (pos + (strCap s.mem (opnd s 0).toNat - 1)) false ∧
      strVal s'.mem (opnd s 0).toNat = line.take (strCap s.mem (opnd s 0).toNat - 1) ∧
      OnlyString s.mem s'.mem (opnd s 0).toNat := by
  obtain ⟨t, ht, rfl, rfl⟩ := ho.isOpen
  obtain ⟨m, e1, e2, e3⟩ := readString_of (s := { s with sp := s.sp - 4#16 }) (v := opnd s 0)
    (l := line.take (strCap s.mem (opnd s 0).toNat - 1)) (e := false)
    ho.number ho.mode ht ⟨hv.even, hv.fields, hv.buffer, hv.apart⟩
    (fgets_part (show rest { s with sp := s.sp - 4#16 } t = _ from hl.text) hl.oneLine h2 hlen)
    (by simp; show min _ _ < strCap s.mem _; omega)
    (fun h => hl.noNul (List.mem_of_mem_take h))
    (checkEoln_no fun h => hl.oneLine (List.mem_of_mem_take h))
  rw [read_exec hlib hr hi (.inr (.inr ⟨rfl, rfl⟩)), e1]
  exact ⟨_, rfl, didRead_afterLine ho.number ho.mode m, e2, e3⟩

/-- **C65**, READLN: behind a line that has been read to its end READLN does nothing but leave the end of
line; elsewhere it goes on to the beginning of the next line. -/
theorem C65_readln (lib : Lib) (fpu : FloatOps.Fpu) (host : Host) (hlib : lib.sysIo = sysIo fpu host)
    (code : List Byte) (maxpc : Word) (s : VM) (hr : Room s 1) (hi : Insn code maxpc s .sysio 0 0x11#16)
    (f : HostFile) (pos : Nat) (ho : OpenIn s (opnd s 0) f pos)
    (line more : List Byte) (hl : LineComes s f pos line more) :
    ∃ s', execute lib code maxpc s = .ok (eNOERROR, s') ∧ s'.mem = s.mem ∧
      DidRead s s' 1 (opnd s 0) f
        (if (s.io.table (opnd s 0).toNat).eoln then pos else pos + (line.length + 1)) false :=
  readln_did lib fpu host hlib code maxpc s hr hi f pos ho line more fun _ => ⟨hl.text, hl.oneLine⟩

/-- READ of a file number that is not open for reading is refused. -/
theorem C65_refused (lib : Lib) (fpu : FloatOps.Fpu) (host : Host) (hlib : lib.sysIo = sysIo fpu host)
    (code : List Byte) (maxpc : Word) (s : VM) (sub : Word) (hs : sub = 0x14#16 ∨ sub = 0x15#16 ∨ sub = 0x16#16)
    (hr : Room s 2) (hi : Insn code maxpc s .sysio 0 sub)
    (hn : ∀ f pos, ¬ OpenIn s (opnd s 1) f pos) :
    ∃ s', execute lib code maxpc s = .ok (if (opnd s 1).toNat < 8 then 0xb8 else 0xb0, s') ∧ OnlyPopped s s' 2 := by
  have hw : ∀ g, withRead { s with sp := s.sp - 4#16 } (opnd s 1).toNat g =
      .ok (if (opnd s 1).toNat < 8 then 0xb8 else 0xb0, { s with sp := s.sp - 4#16 }) := by
    intro g
    unfold withRead
    by_cases h8 : (opnd s 1).toNat < 8
    · rw [if_neg (by unfold maxFiles; omega), if_pos h8]
      cases hs : (s.io.table (opnd s 1).toNat).stream with
      | none =>
        have hs : (entry { s with sp := s.sp - 4#16 } (opnd s 1).toNat).stream = none := hs
        rw [hs]
        rfl
      | some t =>
        have hs' : (entry { s with sp := s.sp - 4#16 } (opnd s 1).toNat).stream = some t := hs
        rw [hs']
        dsimp only
        rw [if_pos]
        · rfl
        · intro hm
          exact hn t.file t.pos ⟨h8, hm, t, hs, rfl, rfl⟩
    · rw [if_pos (by unfold maxFiles; omega), if_neg h8]; rfl
  rcases hs with rfl | rfl | rfl
  · rw [read_exec hlib hr hi (.inl ⟨rfl, rfl⟩), readInteger, hw]
    exact ⟨_, rfl, rfl⟩
  · rw [read_exec hlib hr hi (.inr (.inl ⟨rfl, rfl⟩)), readChar, hw]
    exact ⟨_, rfl, rfl⟩
  · rw [read_exec hlib hr hi (.inr (.inr ⟨rfl, rfl⟩)), readString, hw]
    exact ⟨_, rfl, rfl⟩

/-- A history of the file number `n`: integers are read one after the other by instructions of a program,
each followed by a READLN or not.  What the program does in between does not change the files.  `vs` are the
values found in the variables after each READ. -/
inductive Reads (lib : Lib) (code : List Byte) (maxpc : Word) (n : Word) : Io → List Word → Io → Prop
  | nil (io : Io) : Reads lib code maxpc n io [] io
  | read {s s' : VM} {vs : List Word} {io : Io} (room : Room s 2) (insn : Insn code maxpc s .sysio 0 0x14#16)
      (aligned : (opnd s 0).toNat % 2 = 0) (inside : (opnd s 0).toNat / 2 < s.words) (file : opnd s 1 = n)
      (run : execute lib code maxpc s = .ok (eNOERROR, s')) (more : Reads lib code maxpc n s'.io vs io) :
      Reads lib code maxpc n s.io (s'.mem ((opnd s 0).toNat / 2) :: vs) io
  | readln {s s' : VM} {vs : List Word} {io : Io} (room : Room s 1) (insn : Insn code maxpc s .sysio 0 0x11#16)
      (file : opnd s 0 = n) (run : execute lib code maxpc s = .ok (eNOERROR, s'))
      (end_ : (s.io.table n.toNat).eoln = true) (more : Reads lib code maxpc n s'.io vs io) :
      Reads lib code maxpc n s.io vs io

theorem numberLines_cons {l more : List Byte} {i : Int} {is : List Int} (h : NumberLines l (i :: is) more) :
    ∃ line rest, l = line ++ 10#8 :: rest ∧ BeginsWith line i ∧ -32767 ≤ i ∧ i ≤ 32767 ∧ 10#8 ∉ line ∧
      0#8 ∉ line ∧ line.length ≤ 254 ∧ NumberLines rest is more := by
  cases h with
  | cons a b c d e f g => exact ⟨_, _, rfl, a, b, c, d, e, f, g⟩

/-- **C65**, histories: when the file consists of lines with one number each, the numbers are read in their
order, however many there are. -/
theorem C65_numbers_partial (lib : Lib) (fpu : FloatOps.Fpu) (host : Host) (hlib : lib.sysIo = sysIo fpu host)
    (code : List Byte) (maxpc : Word) (n : Word) (io io' : Io) (vs : List Word)
    (h : Reads lib code maxpc n io vs io') (f : HostFile) :
    ∀ (pos : Nat) (is : List Int) (more : List Byte) (s : VM), s.io = io → OpenIn s n f pos →
      NumberLines ((fileText s f).drop pos) is more → vs.length ≤ is.length →
      vs = (is.take vs.length).map (BitVec.ofInt 16) := by
  induction h with
  | nil => intros; rfl
  | read room insn aligned inside file run more_ ih =>
    rename_i s s' vs io
    intro pos is more s0 h0 ho hn hv
    subst file
    cases is with
    | nil => simp at hv
    | cons i is =>
      obtain ⟨line, rest, h1, h2, h3, h4, h5, h6, h7, h8⟩ := numberLines_cons hn
      have hf : fileText s f = fileText s0 f := by unfold fileText; rw [h0]
      have ho' : OpenIn s (opnd s 1) f pos := ⟨ho.number, by rw [← h0]; exact ho.mode, by rw [← h0]; exact ho.isOpen⟩
      obtain ⟨t, e1, e2, e3, -⟩ := C65_read_integer_partial lib fpu host hlib code maxpc s room insn aligned inside f pos
        ho' line rest ⟨by rw [hf]; exact h1, h5, h6⟩ h7 i h2 h3 h4
      rw [run] at e1
      cases e1
      have hnext : NumberLines ((fileText s' f).drop (pos + (line.length + 1))) is more := by
        have : (fileText s' f).drop (pos + (line.length + 1)) = rest := by
          have hff : fileText s' f = fileText s0 f := by
            unfold fileText; rw [e2.files, h0]
          rw [hff, ← List.drop_drop, h1, ← List.drop_drop, List.drop_left]
          rfl
        rw [this]; exact h8
      have hv' : vs.length ≤ is.length := by simp at hv; omega
      have := ih _ is more s' rfl e2.stream hnext hv'
      rw [List.length_cons, List.take_succ_cons, List.map_cons, ← this, e3]
  | readln room insn file run end_ more_ ih =>
    rename_i s s' vs io
    intro pos is more s0 h0 ho hn hv
    subst file
    cases hvs : vs with
    | nil => rfl
    | cons v vs' =>
      rw [← hvs]
      cases is with
      | nil => rw [hvs] at hv; simp at hv
      | cons i is =>
        obtain ⟨line, rest, h1, h2, h3, h4, h5, h6, h7, h8⟩ := numberLines_cons hn
        have hf : fileText s f = fileText s0 f := by unfold fileText; rw [h0]
        have ho' : OpenIn s (opnd s 0) f pos := ⟨ho.number, by rw [← h0]; exact ho.mode, by rw [← h0]; exact ho.isOpen⟩
        obtain ⟨t, e1, -, e2⟩ := C65_readln lib fpu host hlib code maxpc s room insn f pos
          ho' line rest ⟨by rw [hf]; exact h1, h5, h6⟩
        rw [run] at e1
        cases e1
        rw [if_pos end_] at e2
        refine ih pos (i :: is) more s' rfl e2.stream ?_ hv
        have hff : fileText s' f = fileText s0 f := by unfold fileText; rw [e2.files, h0]
        rw [hff]
        exact hn

/-! ### Reading what has been written -/

theorem beginsWith_decimal {l out : List Byte} {i : Int} {w : Nat} (h : DecimalInt l i) (hj : Justified w l out) :
    BeginsWith out i ∧ 10#8 ∉ out ∧ 0#8 ∉ out := by
  obtain ⟨k, rfl, -⟩ := hj
  have key : ∀ {num : List Byte}, Numeral num i → (∀ b ∈ num, b ≠ 10#8 ∧ b ≠ 0#8) →
      BeginsWith (List.replicate k 32#8 ++ num) i ∧ 10#8 ∉ List.replicate k 32#8 ++ num ∧
        0#8 ∉ List.replicate k 32#8 ++ num := by
    intro num hn hb
    refine ⟨⟨List.replicate k 32#8, num, [], by simp, fun b hb => ?_, hn, by simp⟩, ?_, ?_⟩
    · rw [(List.mem_replicate.mp hb).2]; exact .inl rfl
    · intro h
      rcases List.mem_append.mp h with h | h
      · exact absurd (List.mem_replicate.mp h).2 (by decide)
      · exact (hb _ h).1 rfl
    · intro h
      rcases List.mem_append.mp h with h | h
      · exact absurd (List.mem_replicate.mp h).2 (by decide)
      · exact (hb _ h).2 rfl
  have dig : ∀ {l : List Byte} {n : Nat}, Decimal l n → ∀ b ∈ l, b ≠ 10#8 ∧ b ≠ 0#8 := by
    intro l n h b hb
    have := h.digits b hb
    constructor <;> (rintro rfl; exact absurd this (by decide))
  rcases h with ⟨n, rfl, hd⟩ | ⟨n, r, -, rfl, rfl, hd⟩
  · exact key (.plain ⟨hd.nonempty, hd.digits, hd.value⟩) (dig hd)
  · refine key (.minus ⟨hd.nonempty, hd.digits, hd.value⟩) fun b hb => ?_
    rcases List.mem_cons.mp hb with rfl | hb
    · exact ⟨by decide, by decide⟩
    · exact dig hd b hb

/-- What has been written twice at the end of a file. -/
theorem overwritten_end {old bs new : List Byte} (h : Overwritten old old.length bs new) : new = old ++ bs := by
  apply List.ext_getElem?
  intro i
  by_cases h1 : i < old.length
  · rw [h.before i h1 h1, List.getElem?_append_left h1]
  · rw [List.getElem?_append_right (by omega)]
    by_cases h2 : i - old.length < bs.length
    · have := h.inside (i - old.length) h2
      rw [show old.length + (i - old.length) = i by omega] at this
      rw [this, List.getElem?_eq_getElem h2]
    · rw [h.after i (by omega), List.getElem?_eq_none (by omega), List.getElem?_eq_none (by omega)]

/-- **C65**, round trip: an integer that was written to the end of a file with WRITELN is read back from there
by READ.  Missing: -32768, and fields of 255 characters (see the violations). -/
theorem C65_roundtrip_partial (lib : Lib) (fpu : FloatOps.Fpu) (host : Host) (hlib : lib.sysIo = sysIo fpu host)
    (code : List Byte) (maxpc : Word) (f : HostFile)
    -- WRITE of an integer at the end of the file
    (s : VM) (hr : Room s 3) (hi : Insn code maxpc s .sysio 0 0x1b#16)
    (ho : OpenOut s (opnd s 2) f (fileText s f).length) (s' : VM)
    (hx : execute lib code maxpc s = .ok (eNOERROR, s'))
    -- the end of the line
    (t : VM) (ht : t.io = s'.io) (hr1 : Room t 1) (hi1 : Insn code maxpc t .sysio 0 0x18#16)
    (hn1 : opnd t 0 = opnd s 2) (t' : VM) (hx1 : execute lib code maxpc t = .ok (eNOERROR, t'))
    -- READ of an integer, in a state in which the file has been opened for reading at the old end
    (u : VM) (hu : u.io.files f = t'.io.files f) (hr2 : Room u 2) (hi2 : Insn code maxpc u .sysio 0 0x14#16)
    (ho2 : OpenIn u (opnd u 1) f (fileText s f).length)
    (he : (opnd u 0).toNat % 2 = 0) (hm : (opnd u 0).toNat / 2 < u.words)
    (hv : opnd s 1 ≠ 0x8000#16) (hw : (opnd s 0).toNat / 256 ≤ 254) :
    ∃ u', execute lib code maxpc u = .ok (eNOERROR, u') ∧ u'.mem ((opnd u 0).toNat / 2) = opnd s 1 := by
  obtain ⟨s1, out, e1, ⟨l, hl, hj⟩, w1⟩ := C64_write lib fpu host hlib code maxpc s _ _ _ _ .integer hr hi f _ ho
  rw [hx] at e1
  cases e1
  have ho' : OpenOut t (opnd t 0) f ((fileText s f).length + out.length) := by
    have h := w1.stream
    have hft : fileText t f = fileText s' f := by unfold fileText; rw [ht]
    rw [hn1]
    exact ⟨h.number, by rw [ht, hft]; exact h.isOpen⟩
  obtain ⟨t1, nl, e1, hnl, w2⟩ := C64_write lib fpu host hlib code maxpc t _ _ _ _ .newline hr1 hi1 f _ ho'
  rw [hx1] at e1
  cases e1
  have hnl : nl = [10#8] := hnl
  subst hnl
  have x1 := overwritten_end w1.text
  have hft : fileText t f = fileText s' f := by unfold fileText; rw [ht]
  have x2 : fileText t' f = fileText s f ++ out ++ [10#8] := by
    rw [← x1, ← hft]
    apply overwritten_end
    have := w2.text
    rw [show (fileText s f).length + out.length = (fileText t f).length by rw [hft, x1, List.length_append]] at this
    exact this
  have x3 : fileText u f = fileText s f ++ out ++ [10#8] := by
    rw [← x2]; unfold fileText; rw [hu]
  obtain ⟨b1, b2, b3⟩ := beginsWith_decimal hl hj
  have hlen : out.length ≤ 254 := by
    obtain ⟨k, -, hk⟩ := hj
    have : l.length ≤ 12 := by
      rw [decimalInt_unique hl (decimalInt_fmtD (by have := BitVec.le_toInt (opnd s 1); omega)
        (by have := BitVec.toInt_lt (x := opnd s 1); omega))]
      exact fmtD_length _
    omega
  have low : -32767 ≤ (opnd s 1).toInt := by
    have h1 := BitVec.le_toInt (opnd s 1)
    have h2 : (opnd s 1).toInt ≠ -32768 := by
      intro h
      apply hv
      apply BitVec.eq_of_toInt_eq
      rw [h]; rfl
    omega
  obtain ⟨u', r1, -, r2, -⟩ := C65_read_integer_partial lib fpu host hlib code maxpc u hr2 hi2 he hm f _ ho2 out []
    ⟨by rw [x3, List.append_assoc, List.drop_left], b2, b3⟩ hlen _ b1 low
    (by have := BitVec.toInt_lt (x := opnd s 1); omega)
  exact ⟨u', r1, by rw [r2, BitVec.ofInt_toInt]⟩

/-! ### Concrete cases -/

/-- The standard input holds `txt`; the stack holds the file number 0 and the address 60. -/
def readState (txt : List Byte) : VM :=
  { sampleMem (fun i => if i = 20 then 60#16 else if i = 19 then 0#16 else
      if i = 31 then 70#16 else if i = 32 then 8#16 else 9#16) with
    sp := 40#16
    io := { Io.empty.initializeFile with files := fun f => if f = .stdin then some txt else none } }

/-- " -12 x" -/
def numberLine : List Byte := [32#8, 45#8, 49#8, 50#8, 32#8, 120#8]

theorem numberLine_begins : BeginsWith numberLine (-12) :=
  ⟨[32#8], [45#8, 49#8, 50#8], [32#8, 120#8], rfl, by simp [BlankChar],
    .minus (n := 12) ⟨by decide, by decide, rfl⟩, by simp⟩

/-- Non-vacuity of the reading theorems (the string variable at 60 has a buffer of 8 bytes at 70). -/
example : Room (readState (numberLine ++ [10#8, 55#8])) 2 ∧
    Insn [Op.sysio.toByte, 0, 0x14] 3#16 (readState (numberLine ++ [10#8, 55#8])) .sysio 0 0x14#16 ∧
    OpenIn (readState (numberLine ++ [10#8, 55#8])) 0#16 .stdin 0 ∧
    LineComes (readState (numberLine ++ [10#8, 55#8])) .stdin 0 numberLine [55#8] ∧
    StrVar (readState (numberLine ++ [10#8, 55#8])) 60 ∧
    numberLine.length + 2 ≤ strCap (readState (numberLine ++ [10#8, 55#8])).mem 60 ∧
    ∃ s', execute (machine barePlatform) [Op.sysio.toByte, 0, 0x14] 3#16 (readState (numberLine ++ [10#8, 55#8])) =
      .ok (eNOERROR, s') ∧ s'.mem 30 = BitVec.ofInt 16 (-12) :=
  ⟨⟨by decide, by decide⟩, ⟨⟨by decide, rfl⟩, by decide, fun _ => ⟨0, 0x14, rfl, rfl, rfl⟩⟩,
   ⟨by decide, rfl, _, rfl, rfl, rfl⟩, ⟨rfl, by decide, by decide⟩,
   ⟨by decide, by decide, by decide, .inr (by decide)⟩, by decide, _, rfl, by decide⟩

/-- Non-vacuity of the histories. -/
example : NumberLines (numberLine ++ 10#8 :: (numberLine ++ [10#8])) [-12, -12] [] :=
  .cons numberLine_begins (by decide) (by decide) (by decide) (by decide) (by decide)
    (.cons numberLine_begins (by decide) (by decide) (by decide) (by decide) (by decide) (.nil []))

example : ∃ io', Reads (machine barePlatform) [Op.sysio.toByte, 0, 0x14] 3#16 0#16
    (readState (numberLine ++ [10#8])).io [0xfff4#16] io' :=
  ⟨_, .read (lib := machine barePlatform) (code := [Op.sysio.toByte, 0, 0x14]) (maxpc := 3#16) (s := readState (numberLine ++ [10#8])) ⟨by decide, by decide⟩
    ⟨⟨by decide, rfl⟩, by decide, fun _ => ⟨0, 0x14, rfl, rfl, rfl⟩⟩ (by decide) (by decide) rfl rfl (.nil _)⟩

/-- Two READs of an integer one after the other: the results, and the second state. -/
def readTwice (txt : List Byte) : Res (Word × Word) := do
  let (_, s) ← execute (machine barePlatform) [Op.sysio.toByte, 0, 0x14] 3#16 (readState txt)
  let (_, s') ← execute (machine barePlatform) [Op.sysio.toByte, 0, 0x14] 3#16 { s with
    pc := 0#16
    sp := 40#16 }
  .ok (s.mem 30, s'.mem 30)

/-- **C65** fails for two numbers in one line: of "1 2" and "3" in the next line, two READs deliver 1 and 3. -/
theorem C65_violation_second_number :
    readTwice [49#8, 32#8, 50#8, 10#8, 51#8, 10#8] = .ok (1#16, 3#16) := by rfl

/-- **C65** fails at the end of the file: of the only number 7 two READs deliver 7 twice. -/
theorem C65_violation_end_of_file : readTwice [55#8, 10#8] = .ok (7#16, 7#16) := by rfl

/-- **C65** fails for the smallest integer: "-32768" is read as -32767. -/
theorem C65_violation_smallest :
    BeginsWith [45#8, 51#8, 50#8, 55#8, 54#8, 56#8] (-32768) ∧
    ∃ v, readTwice [45#8, 51#8, 50#8, 55#8, 54#8, 56#8, 10#8] = .ok (BitVec.ofInt 16 (-32767), v) :=
  ⟨⟨[], _, [], rfl, by simp, .minus (d := [51#8, 50#8, 55#8, 54#8, 56#8]) (n := 32768) ⟨by decide, by decide, rfl⟩, by simp⟩, _, rfl⟩

set_option maxRecDepth 20000 in
/-- **C65** fails for a line of 255 characters: 7 in a field of 255 characters and 8 in the next line are read
as 7 and 0. -/
theorem C65_violation_long_line :
    readTwice (List.replicate 254 32#8 ++ [55#8, 10#8, 56#8, 10#8]) = .ok (7#16, 0#16) := by rfl

/-- READ of a character or a string and READLN: the position in the file afterwards, and the memory. -/
def readThenLn (sub : Byte) (txt : List Byte) : Res (Option Nat × (Nat → Word)) := do
  let (_, s) ← execute (machine barePlatform) [Op.sysio.toByte, 0, sub] 3#16 (readState txt)
  let (_, s') ← execute (machine barePlatform) [Op.sysio.toByte, 0, 0x11] 3#16 { s with
    pc := 0#16
    sp := 38#16 }
  .ok ((s'.io.table 0).stream.map (·.pos), s.mem)

/-- **C65** fails for empty lines: a string read from an empty line is not empty but the end of the line, and
READLN then skips the next line (here "5"). -/
theorem C65_violation_empty_line :
    ∃ m, readThenLn 0x16 [10#8, 53#8, 10#8] = .ok (some 3, m) ∧ strVal m 60 = [10#8] := ⟨_, rfl, by decide⟩

/-- With another line it does not. -/
example : ∃ m, readThenLn 0x16 [65#8, 10#8, 53#8, 10#8] = .ok (some 2, m) ∧ strVal m 60 = [65#8] := ⟨_, rfl, by decide⟩

end Pas
