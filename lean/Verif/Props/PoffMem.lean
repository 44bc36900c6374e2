import Verif.Lemmas.PoffMem

/-! # C74: the growing tables of an object file

Whatever is added to a table is kept in the order of the additions, every call returns the
place of what it added, and nothing is read or written outside the memory obtained from
the allocator.  In every statement `junk` is what new memory happens to contain. -/

namespace Pas.PoffMem

open Pas.PoffMem.Spec

variable (junk : Nat → Byte)

/-- Relocations added to a new object file or to a new container of the optimizer: no
access outside the memory, the contents are the entries in order, and the results are their
offsets. -/
theorem C74_relocations (es : List (List Byte)) (h : ∀ e ∈ es, e.length = 8)
    (hn : 8 * es.length + 512 < 2 ^ 32) :
    ∃ b, addAll (addReloc junk) es Buf.new = .ok ((List.range es.length).map (8 * ·), b) ∧
      b.contents = es.flatten ∧ b.size = 8 * es.length := by
  have hl := flatten_len es h
  obtain ⟨b, offs, h1, -, -, h4, h5, h6, h7⟩ := addAll_own (addReloc junk) relKind
    (fun e => e.length = 8) id (fun e b he ho hb => addReloc_own junk e b he ho hb) es Buf.new h
    (own_new _) (by rw [hl]; simp [Buf.new, relKind]; omega)
  refine ⟨b, ?_, by rw [h5]; simp [Buf.contents, Buf.new], by rw [h4, hl]; simp [Buf.new]⟩
  rw [h1]
  congr 2
  apply List.ext_getElem?
  intro i
  by_cases hi : i < es.length
  · rw [h7 i hi, flatten_take_len es h i (by omega)]
    simp [Buf.new, List.getElem?_range hi]
  · rw [List.getElem?_eq_none (by omega), List.getElem?_eq_none (by simp; omega)]

/-- Line numbers added to a new object file. -/
theorem C74_line_numbers (es : List (List Byte)) (h : ∀ e ∈ es, e.length = 8)
    (hn : 8 * es.length + 4096 < 2 ^ 32) :
    ∃ b, addAll (addLine junk) es Buf.new = .ok ((List.range es.length).map (8 * ·), b) ∧
      b.contents = es.flatten ∧ b.size = 8 * es.length := by
  have hl := flatten_len es h
  obtain ⟨b, offs, h1, -, -, h4, h5, h6, h7⟩ := addAll_own (addLine junk) lineKind
    (fun e => e.length = 8) id (fun e b he ho hb => addLine_own junk e b he ho hb) es Buf.new h
    (own_new _) (by rw [hl]; simp [Buf.new, lineKind]; omega)
  refine ⟨b, ?_, by rw [h5]; simp [Buf.contents, Buf.new], by rw [h4, hl]; simp [Buf.new]⟩
  rw [h1]
  congr 2
  apply List.ext_getElem?
  intro i
  by_cases hi : i < es.length
  · rw [h7 i hi, flatten_take_len es h i (by omega)]
    simp [Buf.new, List.getElem?_range hi]
  · rw [List.getElem?_eq_none (by omega), List.getElem?_eq_none (by simp; omega)]

/-- Symbols added to a new object file: the results are the numbers of the symbols. -/
theorem C74_symbols (es : List (List Byte)) (h : ∀ e ∈ es, e.length = 16)
    (hn : 16 * es.length + 1024 < 2 ^ 32) :
    ∃ b, addAll (addSym junk) es Buf.new = .ok (List.range es.length, b) ∧
      b.contents = es.flatten ∧ b.size = 16 * es.length := by
  have hl := flatten_len es h
  obtain ⟨b, offs, h1, -, -, h4, h5, h6, h7⟩ := addAll_own (addSym junk) symKind
    (fun e => e.length = 16) (· / 16) (fun e b he ho hb => addSym_own junk e b he ho hb) es Buf.new h
    (own_new _) (by rw [hl]; simp [Buf.new, symKind]; omega)
  refine ⟨b, ?_, by rw [h5]; simp [Buf.contents, Buf.new], by rw [h4, hl]; simp [Buf.new]⟩
  rw [h1]
  congr 2
  apply List.ext_getElem?
  intro i
  by_cases hi : i < es.length
  · rw [h7 i hi, flatten_take_len es h i (by omega)]
    simp [Buf.new, List.getElem?_range hi]
  · rw [List.getElem?_eq_none (by omega), List.getElem?_eq_none (by simp; omega)]

/-- Symbols added to a new temporary container: the results are byte offsets. -/
theorem C74_tmp_symbols (es : List (List Byte)) (h : ∀ e ∈ es, e.length = 16)
    (hn : 16 * es.length + 1024 < 2 ^ 32) :
    ∃ b, addAll (addTmpSym junk) es Buf.new = .ok ((List.range es.length).map (16 * ·), b) ∧
      b.contents = es.flatten ∧ b.size = 16 * es.length := by
  have hl := flatten_len es h
  obtain ⟨b, offs, h1, -, -, h4, h5, h6, h7⟩ := addAll_own (addTmpSym junk) symKind
    (fun e => e.length = 16) id (fun e b he ho hb => addTmpSym_own junk e b he ho hb) es Buf.new h
    (own_new _) (by rw [hl]; simp [Buf.new, symKind]; omega)
  refine ⟨b, ?_, by rw [h5]; simp [Buf.contents, Buf.new], by rw [h4, hl]; simp [Buf.new]⟩
  rw [h1]
  congr 2
  apply List.ext_getElem?
  intro i
  by_cases hi : i < es.length
  · rw [h7 i hi, flatten_take_len es h i (by omega)]
    simp [Buf.new, List.getElem?_range hi]
  · rw [List.getElem?_eq_none (by omega), List.getElem?_eq_none (by simp; omega)]

/-- File names added to a new object file: the results are the numbers of the entries. -/
theorem C74_file_names (es : List (List Byte)) (h : ∀ e ∈ es, e.length = 4)
    (hn : 4 * es.length + 256 < 2 ^ 32) :
    ∃ b, addAll (addFile junk) es Buf.new = .ok (List.range es.length, b) ∧
      b.contents = es.flatten ∧ b.size = 4 * es.length := by
  have hl := flatten_len es h
  obtain ⟨b, offs, h1, -, h4, h5, h7⟩ := addFiles_own junk es Buf.new h (own_new _) rfl
    (by rw [hl]; simp [Buf.new, fileKind]; omega)
  refine ⟨b, ?_, by rw [h5]; simp [Buf.contents, Buf.new], by rw [h4, hl]; simp [Buf.new]⟩
  rw [h1, h7]
  simp [Buf.new]

/-- Program bytes added one after the other to a new object file. -/
theorem C74_program (code : List Byte) (hn : code.length + 2048 < 2 ^ 32) :
    ∃ b, addAll (fun e => addProgByte junk (e.headD 0)) (code.map fun x => [x]) Buf.new =
        .ok (List.range code.length, b) ∧
      b.contents = code ∧ b.size = code.length := by
  have hf : (code.map fun x => [x]).flatten = code := by
    induction code with
    | nil => rfl
    | cons x xs ih => simp only [List.map_cons, List.flatten_cons, ih (by simp at hn ⊢; omega)]; rfl
  have h1 : ∀ e ∈ code.map (fun x => [x]), e.length = 1 := by
    intro e he; obtain ⟨x, -, rfl⟩ := List.mem_map.1 he; rfl
  obtain ⟨b, offs, g1, -, -, g4, g5, g6, g7⟩ := addAll_own
    (fun e => addProgByte junk (e.headD 0)) progKind (fun e => e.length = 1) id
    (fun e b he ho hb => by
      obtain ⟨x, rfl⟩ := List.length_eq_one_iff.1 he
      exact addProgByte_own junk x b ho hb)
    (code.map fun x => [x]) Buf.new h1 (own_new _) (by rw [hf]; simp [Buf.new, progKind]; omega)
  rw [hf] at g4 g5
  refine ⟨b, ?_, by rw [g5]; simp [Buf.contents, Buf.new], by rw [g4]; simp [Buf.new]⟩
  rw [g1]
  congr 2
  apply List.ext_getElem?
  intro i
  by_cases hi : i < code.length
  · rw [g7 i (by simpa using hi), flatten_take_len _ h1 i (by simp; omega)]
    simp [Buf.new, List.getElem?_range hi]
  · rw [List.getElem?_eq_none (by simp at g6; omega), List.getElem?_eq_none (by simp; omega)]

/-- Program bytes written to a new temporary container in pieces of less than 65536 bytes
(one byte at a time is the case of pieces of one byte): the program is all of them in
order.  Without the limit on the pieces it is false: `C74_violation_bytes`. -/
theorem C74_tmp_program_partial (ds : List (List Byte)) (h : ∀ d ∈ ds, d.length < 65536)
    (hn : ds.flatten.length + 2048 < 2 ^ 32) :
    ∃ b offs, addAll (writeTmpProgBytes junk) ds Buf.new = .ok (offs, b) ∧
      b.contents = ds.flatten ∧ b.size = ds.flatten.length := by
  obtain ⟨b, offs, g1, -, -, g4, g5, -, -⟩ := addAll_own (writeTmpProgBytes junk) tmpProgKind
    (fun d => d.length < 65536) id (fun d b hd ho hb => writeTmp_own junk d b hd ho hb) ds Buf.new h
    (own_new _) (by show 0 + _ + 2048 < _; omega)
  exact ⟨b, offs, g1, by rw [g5]; simp [Buf.contents, Buf.new], by rw [g4]; simp [Buf.new]⟩

/-- A byte added to a temporary container is a piece of one byte. -/
theorem C74_tmp_byte (x : Byte) (b : Buf) :
    addTmpProgByte junk x b = writeTmpProgBytes junk [x] b := rfl

/-- Constant strings of less than 65535 characters added to a new object file: each result
is an even offset at which the terminated string stands in the section, also after all
later additions.  Without the limit it is false: `C74_violation_string`. -/
theorem C74_constants_partial (ss : List (List Byte)) (h : ∀ s ∈ ss, s.length < 65535)
    (hn : (ss.map fun s => s.length + 2).sum + 1024 < 2 ^ 32) :
    ∃ b offs, addAll (addRoString junk) ss Buf.new = .ok (offs, b) ∧ offs.length = ss.length ∧
      ∀ (i : Nat) (s : List Byte) (o : Nat), ss[i]? = some s → offs[i]? = some o →
        o % 2 = 0 ∧ (b.contents.drop o).take (s.length + 1) = s ++ [0#8] := by
  obtain ⟨b, offs, g1, -, -, -, g5, g6⟩ := addRo_all junk ss Buf.new
    (fun s hs => by have := h s hs; omega) (own_new _) rfl (fun hb => absurd rfl hb)
    (by simp [Buf.new, roKind]; omega)
  exact ⟨b, offs, g1, g5, fun i s o hi ho => ⟨(g6 i s o hi ho).1, (g6 i s o hi ho).2.2⟩⟩

/-- Strings added to the string table of a new object file, or of one read from a file
(`t` is the section read, `none` for a new file): if the list version of the table
(`Poff.addString`, about which C39 is proved) gives offsets and a table, the memory version
gives the same offsets and contents. -/
theorem C74_strings (ss : List (Option (List Byte))) (t : Option (List Byte))
    (ht : t ≠ some []) (offs : List Nat) (t' : Option (List Byte))
    (h : listStrings ss t = .ok (offs, t')) (hn : (t'.getD []).length + 1024 < 2 ^ 32) :
    ∃ b, memStrings junk ss (Buf.ofFile (t.getD [])) = .ok (offs, b) ∧
      b.contents = t'.getD [] := by
  have mono : ∀ (t : Option (List Byte)) (s : Option (List Byte)) (i : Nat) (u : List Byte),
      Poff.addString t s = .ok (i, u) → (t.getD []).length ≤ u.length := by
    intro t s i u hu
    unfold Poff.addString at hu
    have h0 : (t.getD []).length ≤ (t.getD [0#8]).length := by cases t <;> simp
    cases hf : Poff.findString (some (t.getD [0#8])) s with
    | ub => simp [hf] at hu
    | hang => simp [hf] at hu
    | ok r =>
      simp only [hf, Res.ok_bind] at hu
      cases r with
      | some j => simp only [Res.ok.injEq, Prod.mk.injEq] at hu; rw [← hu.2]; exact h0
      | none =>
        cases s with
        | none => simp only [Res.ok.injEq, Prod.mk.injEq] at hu; rw [← hu.2]; exact h0
        | some s =>
          simp only at hu
          split at hu
          · simp only [Res.ok.injEq, Prod.mk.injEq] at hu; rw [← hu.2]; exact h0
          · simp only [Res.ok.injEq, Prod.mk.injEq] at hu; rw [← hu.2]; simp; omega
  have monoL : ∀ (ss : List (Option (List Byte))) (t : Option (List Byte)) (o : List Nat)
      (u : Option (List Byte)), listStrings ss t = .ok (o, u) → (t.getD []).length ≤ (u.getD []).length := by
    intro ss
    induction ss with
    | nil => intro t o u hu; simp only [listStrings, Res.ok.injEq, Prod.mk.injEq] at hu; rw [hu.2]; exact Nat.le_refl _
    | cons s ss ih =>
      intro t o u hu
      unfold listStrings at hu
      cases ha : Poff.addString t s with
      | ub => simp [ha] at hu
      | hang => simp [ha] at hu
      | ok r =>
        simp only [ha, Res.ok_bind] at hu
        cases hl : listStrings ss (some r.2) with
        | ub => simp [hl] at hu
        | hang => simp [hl] at hu
        | ok q =>
          simp only [hl, Res.ok_bind, Res.ok.injEq, Prod.mk.injEq] at hu
          have h1 := mono t s r.1 r.2 (by rw [ha])
          have h2 := ih _ _ _ hl
          rw [← hu.2]
          simp only [Option.getD_some] at h2
          omega
  have go : ∀ (ss : List (Option (List Byte))) (b : Buf) (t : Option (List Byte)) (o : List Nat)
      (u : Option (List Byte)), StrOk b t → b.contents = t.getD [] →
      listStrings ss t = .ok (o, u) → (u.getD []).length + 1024 < 2 ^ 32 →
      ∃ b', memStrings junk ss b = .ok (o, b') ∧ b'.contents = u.getD [] := by
    intro ss
    induction ss with
    | nil =>
      intro b t o u _ hc hu _
      simp only [listStrings, Res.ok.injEq, Prod.mk.injEq] at hu
      exact ⟨b, by simp [memStrings, hu.1], by rw [hc, hu.2]⟩
    | cons s ss ih =>
      intro b t o u hb hc hu hn
      unfold listStrings at hu
      cases ha : Poff.addString t s with
      | ub => simp [ha] at hu
      | hang => simp [ha] at hu
      | ok r =>
        simp only [ha, Res.ok_bind] at hu
        cases hl : listStrings ss (some r.2) with
        | ub => simp [hl] at hu
        | hang => simp [hl] at hu
        | ok q =>
          simp only [hl, Res.ok_bind, Res.ok.injEq, Prod.mk.injEq] at hu
          have hm := monoL _ _ _ _ hl
          rw [hu.2] at hm
          simp only [Option.getD_some] at hm
          obtain ⟨b1, h1, h2, h3⟩ := addStr_ok junk s b t hb r.1 r.2 (by rw [ha]) (by simp [strKind]; omega)
          obtain ⟨b2, g1, g2⟩ := ih b1 (some r.2) q.1 u h3 h2 (by rw [hl, ← hu.2]) hn
          exact ⟨b2, by simp [memStrings, h1, g1, hu.1], g2⟩
  cases t with
  | none =>
    exact go ss _ none offs t' (.none _ (by simp [Buf.ofFile]))
      (by simp [Buf.ofFile, Buf.contents]) h hn
  | some d =>
    have hd : d ≠ [] := fun hd => ht (by rw [hd])
    have hof : Buf.ofFile d = { block := some d, size := d.length } := by simp [Buf.ofFile, hd]
    have hc : (Buf.ofFile d).contents = d := by rw [hof]; simp [Buf.contents]
    refine go ss _ (some d) offs t' ?_ (by simpa using hc) h hn
    have := StrOk.some (Buf.ofFile d) d ⟨by rw [hof], by rw [hof]; exact Nat.le_refl _, by rw [hof]; simp⟩
    rw [hc] at this
    exact this

/-- The relocations of every pass of the optimizer are what the next pass reads, in order
and completely; the first pass reads the relocations `es` that were added to the object
file in memory.  For an object file that was read it is false as soon as it has a
relocation: `C74_violation_clone`. -/
theorem C74_passes_partial (es : List (List Byte)) (ps : List (List (List Byte))) (fuel : Nat)
    (h : ∀ l ∈ es :: ps, ∀ e ∈ l, e.length = 8)
    (hn : ∀ l ∈ es :: ps, 8 * l.length + 512 < 2 ^ 32)
    (hf : ∀ l ∈ es :: ps, l.length < fuel) :
    ∃ offs file r r', addAll (addReloc junk) es Buf.new = .ok (offs, file) ∧
      createRelocs junk file = .ok r ∧
      passes junk fuel ps r = .ok ((es :: ps).take ps.length, r') ∧
      traverse fuel r'.prev = .ok (((es :: ps).getLast?).getD []) ∧ r'.cur.contents = [] := by
  -- one container whose traversal is at the beginning gives its relocations
  have walk : ∀ (l : List (List Byte)) (b : Buf), (∀ e ∈ l, e.length = 8) → l.length < fuel →
      (b.block = none ∧ b.size = 0 ∨ ∃ m, Fit b m) → b.index = 0 → b.contents = l.flatten →
      b.size = l.flatten.length → traverse fuel b = .ok l := by
    intro l b h8 hfu hb hx hc hz
    have hl := flatten_len l h8
    rcases hb with ⟨-, hs⟩ | ⟨m, hm⟩
    · have : l = [] := List.eq_nil_of_length_eq_zero (by omega)
      subst this
      obtain ⟨g, rfl⟩ : ∃ g, fuel = g + 1 := ⟨fuel - 1, by omega⟩
      exact traverse_none g b hs
    · simpa using traverse_from l h8 m l.length 0 fuel b (by omega) (by omega) (by omega) hm hc hz
        (by omega)
  have ownb : ∀ {b : Buf}, Own relKind b → (b.block = none ∧ b.size = 0 ∨ ∃ m, Fit b m) := by
    intro b hb
    cases hb with
    | none h1 h2 => exact .inl ⟨h1, h2⟩
    | some m h1 _ => exact .inr ⟨m, h1⟩
  have go : ∀ (ps : List (List (List Byte))) (es : List (List Byte)) (r : Relocs),
      (∀ l ∈ es :: ps, ∀ e ∈ l, e.length = 8) → (∀ l ∈ es :: ps, 8 * l.length + 512 < 2 ^ 32) →
      (∀ l ∈ es :: ps, l.length < fuel) →
      (r.prev.block = none ∧ r.prev.size = 0 ∨ ∃ m, Fit r.prev m) → r.prev.index = 0 →
      r.prev.contents = es.flatten → r.prev.size = es.flatten.length →
      r.cur.block = none → r.cur.size = 0 →
      ∃ r', passes junk fuel ps r = .ok ((es :: ps).take ps.length, r') ∧
        traverse fuel r'.prev = .ok (((es :: ps).getLast?).getD []) ∧ r'.cur.contents = [] := by
    intro ps
    induction ps with
    | nil =>
      intro es r h8 hn hf hb hx hc hz hcb hcs
      exact ⟨r, by simp [passes], by
        simpa using walk es r.prev (h8 es (by simp)) (hf es (by simp)) hb hx hc hz,
        by simp [Buf.contents, hcs]⟩
    | cons p ps ih =>
      intro es r h8 hn hf hb hx hc hz hcb hcs
      have hlp := flatten_len p (h8 p (by simp))
      have hnp := hn p (by simp)
      obtain ⟨c, offs, g1, g2, -, g4, g5, -, -⟩ := addAll_own (addReloc junk) relKind
        (fun e => e.length = 8) id (fun e b he ho hb => addReloc_own junk e b he ho hb) p r.cur
        (h8 p (by simp)) (.none _ hcb hcs) (by rw [hlp, hcs]; simp [relKind]; omega)
      have hcc : r.cur.contents = [] := by simp [Buf.contents, hcs]
      obtain ⟨r', k1, k2, k3⟩ := ih p (swapRelocs { r with cur := c })
        (fun l hl => h8 l (by simp at hl ⊢; exact .inr hl))
        (fun l hl => hn l (by simp at hl ⊢; exact .inr hl))
        (fun l hl => hf l (by simp at hl ⊢; exact .inr hl))
        (by
          rcases ownb g2 with hq | ⟨m, hm⟩
          · exact .inl hq
          · exact .inr ⟨m, ⟨hm.block, hm.size, hm.alloc⟩⟩)
        rfl
        (by simp only [swapRelocs, rewind]; show c.contents = _; rw [g5, hcc]; rfl)
        (by simp only [swapRelocs, rewind]; rw [g4, hcs]; omega) rfl rfl
      refine ⟨r', ?_, ?_, k3⟩
      · simp only [passes]
        rw [walk es r.prev (h8 es (by simp)) (hf es (by simp)) hb hx hc hz]
        simp only [Res.ok_bind]
        rw [g1]
        simp only [Res.ok_bind]
        rw [k1]
        simp
      · rw [k2]; simp [List.getLast?_cons_cons]
  have hle := flatten_len es (h es (by simp))
  have hne := hn es (by simp)
  obtain ⟨f, offs, g1, g2, g3, g4, g5, -, -⟩ := addAll_own (addReloc junk) relKind
    (fun e => e.length = 8) id (fun e b he ho hb => addReloc_own junk e b he ho hb) es Buf.new
    (h es (by simp)) (own_new _) (by rw [hle]; simp [Buf.new, relKind]; omega)
  have hfc : f.contents = es.flatten := by rw [g5]; simp [Buf.new, Buf.contents]
  have hfz : f.size = es.flatten.length := by rw [g4]; simp [Buf.new]
  have hcl : f.contents.length = f.size := by rw [hfc, hfz]
  have hsz : f.size ≤ (f.block.getD []).length ∧ f.size ≤ f.alloc := by
    cases g2 with
    | none h1 h2 => omega
    | some m h1 h2 => exact ⟨by rw [h1.block]; exact h1.size, h2⟩
  have hst := store_ok { block := some (malloc junk f.alloc), size := f.size, alloc := f.alloc, index := 0 }
    (malloc junk f.alloc) rfl 0 f.contents (by rw [hcl]; simp [malloc]; exact hsz.2)
  have hlen := stored_length (malloc junk f.alloc) f.contents 0 (by rw [hcl]; simp [malloc]; exact hsz.2)
  generalize hP : (Buf.mk (some (List.take 0 (malloc junk f.alloc) ++ f.contents ++
    List.drop (0 + f.contents.length) (malloc junk f.alloc))) f.size f.alloc 0) = P at hst
  obtain ⟨r', k1, k2, k3⟩ := go ps es ⟨P, Buf.new⟩ h hn hf
    (.inr ⟨_, ⟨by rw [← hP], by rw [hlen, ← hP]; simp [malloc]; exact hsz.2,
      by rw [hlen, ← hP]; simp [malloc]⟩⟩) (by rw [← hP])
    (by
      rw [← hP]
      simp only [Buf.contents, Option.getD_some]
      have := stored_take (malloc junk f.alloc) f.contents 0 (by rw [hcl]; simp [malloc]; exact hsz.2)
      rw [Nat.zero_add, hcl] at this
      simp only [Buf.contents] at this hcl hfc
      rw [Nat.zero_add, hcl, this, hfc]; rfl) (by rw [← hP]; exact hfz) rfl rfl
  refine ⟨offs, f, _, r', g1, ?_, k1, k2, k3⟩
  unfold createRelocs clone
  simp only []
  rw [if_neg (by omega), hst]
  rfl

/-- Appending the constant data of several object files, as the linker does: the section is
all of them in order. -/
def appendAll : List (List Byte) → Buf → Res Buf
  | [], b => .ok b
  | d :: ds, b => do
    let c ← appendRo junk d b
    appendAll ds c

theorem C74_append (ds : List (List Byte)) (hn : ds.flatten.length < 2 ^ 32) :
    ∃ b, appendAll junk ds Buf.new = .ok b ∧ b.contents = ds.flatten ∧
      b.size = ds.flatten.length := by
  have go : ∀ (ds : List (List Byte)) (b : Buf), b.size ≤ (b.block.getD []).length →
      b.size + ds.flatten.length < 2 ^ 32 →
      ∃ b', appendAll junk ds b = .ok b' ∧ b'.contents = b.contents ++ ds.flatten ∧
        b'.size = b.size + ds.flatten.length := by
    intro ds
    induction ds with
    | nil => intro b _ _; exact ⟨b, rfl, by simp, by simp⟩
    | cons d ds ih =>
      intro b hb hn
      simp only [List.flatten_cons, List.length_append] at hn
      by_cases hd : d = []
      · subst hd
        obtain ⟨b', h1, h2, h3⟩ := ih b hb (by simpa using hn)
        exact ⟨b', by simp [appendAll, appendRo, h1], by simp [h2], by simp [h3]⟩
      · have hl : b.size + d.length ≤ (realloc junk (b.block.getD []) (b.size + d.length)).length := by
          rw [realloc_length]; exact Nat.le_refl _
        have hst := store_ok { b with block := some (realloc junk (b.block.getD []) (b.size + d.length)) }
          _ rfl b.size d hl
        obtain ⟨c, hc, hcc, hcs, hcb⟩ : ∃ c, appendRo junk d b = .ok c ∧
            c.contents = b.contents ++ d ∧ c.size = b.size + d.length ∧
            c.size ≤ (c.block.getD []).length := by
          unfold appendRo
          rw [if_neg hd]
          simp only []
          rw [if_neg (by omega), hst]
          simp only [Res.ok_bind]
          refine ⟨_, rfl, ?_, rfl, ?_⟩
          · simp only [Buf.contents, Option.getD_some]
            rw [stored_take _ _ _ hl, realloc_take _ _ _ _ (by omega) hb]
          · simp only [Option.getD_some]
            rw [stored_length _ _ _ hl, realloc_length]
            exact Nat.le_refl _
        obtain ⟨b', h1, h2, h3⟩ := ih c hcb (by omega)
        refine ⟨b', by simp [appendAll, hc, h1], by rw [h2, hcc]; simp, by rw [h3, hcs]; simp; omega⟩
  obtain ⟨b, h1, h2, h3⟩ := go ds Buf.new (by simp [Buf.new]) (by simpa [Buf.new] using hn)
  exact ⟨b, h1, by rw [h2]; simp [Buf.new, Buf.contents], by rw [h3]; simp [Buf.new]⟩

/-- A table handed over from a container to the object file keeps its contents, and the
container is empty afterwards. -/
theorem C74_replace (t : Buf) :
    (replace t).1.contents = t.contents ∧ (replace t).1.size = t.size ∧
      (replace t).2.contents = [] ∧ (replace t).2.size = 0 := by
  simp [replace, Buf.contents]

/-! ### Where the property fails -/

/-- The optimizer copies the relocations of the object file it has read into memory of 0
bytes: every file that has a relocation makes it write outside its memory. -/
theorem C74_violation_clone (d : List Byte) (hd : d ≠ []) :
    createRelocs junk (Buf.ofFile d) = .ub := by
  have : 0 < d.length := List.length_pos_iff.2 hd
  simp only [createRelocs, clone, Buf.ofFile, if_neg hd]
  rw [if_neg (by simp)]
  rw [store_ub _ (malloc junk 0) rfl _ _ (by simp [malloc, Buf.contents]; omega)]
  rfl

/-- Without relocations in the file the first pass starts with an empty list. -/
theorem C74_no_relocations (fuel : Nat) :
    ∃ r, createRelocs junk (Buf.ofFile []) = .ok r ∧ traverse (fuel + 1) r.prev = .ok [] := by
  refine ⟨⟨{ block := some [] }, Buf.new⟩, ?_, traverse_none _ _ rfl⟩
  simp [createRelocs, clone, Buf.ofFile, Buf.store, malloc, Buf.contents, Buf.new]

/-- An entry added to a table that was read from a file: it is added, at the end, exactly
when the table and the entry together fit into one increment; otherwise the table is made
smaller and the write is outside the memory. -/
theorem after_read (k : Kind) (hk : k.loop = false) (hi : 0 < k.inc) (d e : List Byte) (hd : d ≠ [])
    (hb : d.length + e.length + k.inc < 2 ^ 32) :
    (d.length + e.length ≤ k.inc →
      ∃ b, (Buf.ofFile d).add junk k e.length e e.length = .ok (d.length, b) ∧
        b.contents = d ++ e) ∧
    (k.inc < d.length + e.length → (Buf.ofFile d).add junk k e.length e e.length = .ub) := by
  have hof : Buf.ofFile d = { block := some d, size := d.length } := by simp [Buf.ofFile, hd]
  have hd0 : 0 < d.length := List.length_pos_iff.2 hd
  constructor
  · intro hle
    obtain ⟨b, h1, -, -, -, h5⟩ := add_fit junk k e (Buf.ofFile d) d
      ⟨by rw [hof], by rw [hof]; exact Nat.le_refl _, by rw [hof]; exact Nat.zero_le _⟩ hi
      (.inr (by rw [hof]; simp; exact hle)) (by rw [hof]; exact hb)
    refine ⟨b, by rw [h1, hof], ?_⟩
    rw [h5, hof]
    simp [Buf.contents]
  · intro hlt
    unfold Buf.add
    rw [check_some junk k _ d (by rw [hof])]
    unfold Buf.room
    rw [if_pos (by rw [hof]; simp; omega)]
    simp only [hk, Bool.false_eq_true, if_false]
    rw [if_neg (by rw [hof]; simp; omega)]
    simp only [Res.ok_bind]
    rw [store_ub _ (realloc junk ((Buf.ofFile d).block.getD []) ((Buf.ofFile d).alloc + k.inc)) rfl _ _
      (by rw [realloc_length, hof]; simp; exact hlt)]
    rfl

/-- Adding to the tables of an object file that has been read: allowed up to 64 symbols,
64 relocations and 512 line numbers. -/
theorem C74_after_read_partial (d e : List Byte) (hd : d ≠ []) (hb : d.length < 2 ^ 31) :
    (e.length = 16 → d.length + 16 ≤ 64 * 16 → ∃ b, addTmpSym junk e (Buf.ofFile d) = .ok (d.length, b) ∧
      b.contents = d ++ e) ∧
    (e.length = 8 → d.length + 8 ≤ 64 * 8 → ∃ b, addReloc junk e (Buf.ofFile d) = .ok (d.length, b) ∧
      b.contents = d ++ e) ∧
    (e.length = 8 → d.length + 8 ≤ 512 * 8 → ∃ b, addLine junk e (Buf.ofFile d) = .ok (d.length, b) ∧
      b.contents = d ++ e) := by
  refine ⟨fun he hl => ?_, fun he hl => ?_, fun he hl => ?_⟩
  · have := (after_read junk symKind rfl (by decide) d e hd (by simp [symKind]; omega)).1
      (by simp [symKind]; omega)
    rw [he] at this; exact this
  · have := (after_read junk relKind rfl (by decide) d e hd (by simp [relKind]; omega)).1
      (by simp [relKind]; omega)
    rw [he] at this; exact this
  · have := (after_read junk lineKind rfl (by decide) d e hd (by simp [lineKind]; omega)).1
      (by simp [lineKind]; omega)
    rw [he] at this; exact this

/-- … and beyond that every addition writes outside the memory: a symbol, a relocation, a
line number added to a file read with 64 symbols, 64 relocations, 512 line numbers or
more. -/
theorem C74_violation_after_read (d e : List Byte) (hb : d.length < 2 ^ 31) :
    (e.length = 16 → 64 * 16 ≤ d.length → addSym junk e (Buf.ofFile d) = .ub) ∧
    (e.length = 8 → 64 * 8 ≤ d.length → addReloc junk e (Buf.ofFile d) = .ub) ∧
    (e.length = 8 → 512 * 8 ≤ d.length → addLine junk e (Buf.ofFile d) = .ub) := by
  refine ⟨fun he hl => ?_, fun he hl => ?_, fun he hl => ?_⟩
  · have hd : d ≠ [] := by rintro rfl; simp at hl
    have := (after_read junk symKind rfl (by decide) d e hd (by simp [symKind]; omega)).2
      (by simp [symKind]; omega)
    rw [he] at this
    simp [addSym, this]
  · have hd : d ≠ [] := by rintro rfl; simp at hl
    have := (after_read junk relKind rfl (by decide) d e hd (by simp [relKind]; omega)).2
      (by simp [relKind]; omega)
    rw [he] at this; exact this
  · have hd : d ≠ [] := by rintro rfl; simp at hl
    have := (after_read junk lineKind rfl (by decide) d e hd (by simp [lineKind]; omega)).2
      (by simp [lineKind]; omega)
    rw [he] at this; exact this

/-- A first piece of 65536 bytes or more (below 73632) is written outside the memory: only
the low 16 bits of its length are used to make room. -/
theorem C74_violation_bytes (d : List Byte) (h1 : 65536 ≤ d.length) (h2 : d.length ≤ 65536 + 8096) :
    writeTmpProgBytes junk d Buf.new = .ub := by
  have hm : d.length % 65536 = d.length - 65536 := by omega
  have hc := check_new junk tmpProgKind Buf.new rfl (by decide)
  unfold writeTmpProgBytes Buf.add Buf.room
  rw [if_neg (by rw [hc.2.1, hc.2.2.1, hm]; simp [tmpProgKind]; omega)]
  simp only [Res.ok_bind]
  rw [store_ub _ _ hc.1.block _ _ (by rw [hc.2.1]; simp [malloc, tmpProgKind]; omega)]
  rfl

/-- The same for a constant string of 65535 characters or more. -/
theorem C74_violation_string (s : List Byte) (h1 : 65535 ≤ s.length) (h2 : s.length < 65536 + 4096) :
    addRoString junk s Buf.new = .ub := by
  have hm : (s.length + 1) % 65536 = s.length + 1 - 65536 := by omega
  have hc := check_new junk roKind Buf.new rfl (by decide)
  unfold addRoString Buf.add Buf.room
  rw [if_neg (by rw [hc.2.1, hc.2.2.1, hm]; simp [roKind]; omega)]
  simp only [Res.ok_bind]
  rw [store_ub _ _ hc.1.block _ _ (by rw [hc.2.1]; simp [malloc, roKind]; omega)]
  rfl

/-! ### The hypotheses are met -/

/-- A table that grows: 200 relocations, of which the first block holds 128. -/
example : (∀ e ∈ List.replicate 200 (List.replicate 8 (1#8)), e.length = 8) ∧
    8 * (List.replicate 200 (List.replicate 8 (1#8))).length + 512 < 2 ^ 32 := by
  constructor
  · intro e he; rw [List.eq_of_mem_replicate he]; rfl
  · rw [List.length_replicate]; decide

example : ∃ b, addAll (addReloc junk) (List.replicate 200 (List.replicate 8 (1#8))) Buf.new =
      .ok ((List.range 200).map (8 * ·), b) ∧ b.size = 1600 := by
  obtain ⟨b, h1, -, h3⟩ := C74_relocations junk (List.replicate 200 (List.replicate 8 (1#8)))
    (by intro e he; rw [List.eq_of_mem_replicate he]; rfl) (by rw [List.length_replicate]; decide)
  rw [List.length_replicate] at h1 h3
  exact ⟨b, h1, h3⟩

/-- 2049 line numbers, 300 symbols, 65 file names: one more than the first blocks hold, or
more. -/
example : (∀ e ∈ List.replicate 2049 (List.replicate 8 (1#8)), e.length = 8) ∧
    (∀ e ∈ List.replicate 300 (List.replicate 16 (1#8)), e.length = 16) ∧
    (∀ e ∈ List.replicate 65 (List.replicate 4 (1#8)), e.length = 4) := by
  refine ⟨?_, ?_, ?_⟩ <;> (intro e he; rw [List.eq_of_mem_replicate he]; rfl)

/-- A program of 20000 bytes; pieces of 40000 bytes; strings of 3000 characters. -/
example : (List.replicate 20000 (1#8)).length + 2048 < 2 ^ 32 ∧
    (∀ d ∈ [List.replicate 40000 (1#8), List.replicate 3 (2#8)], d.length < 65536) ∧
    (∀ s ∈ [List.replicate 3000 (65#8), List.replicate 3000 (66#8)], s.length < 65535) := by
  refine ⟨by rw [List.length_replicate]; decide, ?_, ?_⟩ <;>
  · intro d hd
    simp only [List.mem_cons, List.not_mem_nil, or_false] at hd
    rcases hd with rfl | rfl <;> rw [List.length_replicate] <;> decide

/-- Two names in a new string table, the second of them again. -/
example : listStrings [some [65#8], some [66#8, 67#8], some [66#8, 67#8]] none =
    .ok ([1, 3, 3], some [0#8, 65#8, 0#8, 66#8, 67#8, 0#8]) := by decide

/-- The same in a table that was read from a file. -/
example : listStrings [some [66#8, 67#8], some [65#8]] (some [0#8, 65#8, 0#8]) =
    .ok ([3, 1], some [0#8, 65#8, 0#8, 66#8, 67#8, 0#8]) := by decide

/-- Passes over relocations: one, none, two. -/
example : (∀ l ∈ [[[1#8, 0, 0, 0, 4, 0, 0, 0]], [], [[2#8, 0, 0, 0, 4, 0, 0, 0], [3#8, 0, 0, 0, 8, 0, 0, 0]]],
      ∀ e ∈ l, e.length = 8) ∧
    (∀ l ∈ [[[1#8, 0, 0, 0, 4, 0, 0, 0]], [], [[2#8, 0, 0, 0, 4, 0, 0, 0], [3#8, 0, 0, 0, 8, 0, 0, 0]]],
      l.length < 3) := by decide

/-- Three sections appended, one of them empty. -/
example : ∃ b, appendAll junk [[1#8, 2], [], [3#8]] Buf.new = .ok b ∧ b.contents = [1, 2, 3] := by
  obtain ⟨b, h1, h2, -⟩ := C74_append junk [[1#8, 2], [], [3#8]] (by decide)
  exact ⟨b, h1, h2⟩

/-- Sections of the sizes that overflow. -/
example : ∃ d : List Byte, d ≠ [] ∧ 512 * 8 ≤ d.length ∧ d.length < 2 ^ 31 :=
  ⟨List.replicate 4096 0, by rw [Ne, List.replicate_eq_nil_iff]; decide, by rw [List.length_replicate]; decide,
    by rw [List.length_replicate]; decide⟩

end Pas.PoffMem
