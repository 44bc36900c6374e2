import Verif.Lemmas.PoffOps
/-! C38: object files are read back as written; truncated and foreign files are rejected. -/
namespace Pas.Props
open Pas.Poff Pas.Spec

theorem sumLen_filter (D : Sec → List Byte) (f : Sec → Bool) (a : List Sec) :
    sumLen D (a.filter f) ≤ sumLen D a := by
  induction a with
  | nil => simp
  | cons k a ih =>
    rw [List.filter_cons]
    split
    · rw [sumLen_cons, sumLen_cons]; omega
    · rw [sumLen_cons]; omega

theorem sumLen_order (p : Poff) : sumLen p.data writeOrder = total p := by
  simp [sumLen, writeOrder, total, List.flatMap_cons]; omega

theorem good_of_inv {p : Poff} {c l n} (h : Inv p c l n) (hn : n < 2 ^ 32) (hf : c.files.length ≤ 1)
    (hd : c.debug = [] ∨ c.relocs.length ≤ 1) : Good p l where
  ident := h.ident
  version := h.version
  shsize := h.shsize
  shoff := h.shoff
  typed := h.typed
  sizes := h.sizes
  small := by
    have := h.size
    unfold total at this
    intro k; cases k <;> omega
  strs := h.strs
  symtab := by
    rw [h.symtab, len_flatMap (symImg l) 16 _ (fun s _ => symImage_length _ _)]; omega
  rel := by rw [h.rel, len_flatMap _ 8 _ (fun r _ => by simp [relImg])]; omega
  lineno := by rw [h.lineno, len_flatMap _ 8 _ (fun r _ => by simp [lineImg])]; omega
  filetab := by rw [h.filetab, len_flatMap _ 4 _ (fun r _ => by simp [fileImg])]; omega
  dbgfunc := by
    rcases hd with hd | hd
    · left; rw [h.dbgfunc, hd]; rfl
    · right; rw [h.rel, len_flatMap _ 8 _ (fun r _ => by simp [relImg])]; omega

/-- The written file is small. -/
theorem file_length {p : Poff} {l} (g : Good p l) {f p'} (hw : writeFile p = .ok (f, p')) :
    f.length ≤ total p + 253 := by
  obtain ⟨f', p1, m, dimg, w1, w2, w3, w4, w5, w6, w7, w8, w9, w10, w11, w13, w12⟩ := write_spec g
  rw [hw] at w1
  injection w1 with w1; injection w1 with e1 e2
  subst e1 e2
  have hidl : p'.hdr.swap.ident.length = 4 := by
    rw [(ident_swap _).1, w2]; simp [g.ident]
  have hH : p'.hdr.swap.image.length = 24 := FileHdr.image_length _ hidl
  have hA := hdrs_len p'.sh (writeOrder.filter p.have)
  have hB : ((writeOrder.filter p.have).flatMap dimg).length = sumLen p'.data (writeOrder.filter p.have) :=
    flatMap_len _ (fun k hk => w11 k (List.mem_filter.mp hk).2)
  have h8 : (writeOrder.filter p.have).length ≤ 8 := List.length_filter_le p.have writeOrder
  have h9 := sumLen_filter p'.data p.have writeOrder
  rw [sumLen_order] at h9
  have h10 : total p' ≤ total p + 69 := by
    unfold total
    rw [w3 .text (by decide), w3 .rodata (by decide), w3 .symtab (by decide), w3 .rel (by decide),
      w3 .filetab (by decide), w3 .lineno (by decide), w3 .dbgfunc (by decide)]
    omega
  rw [w9]
  simp only [List.length_append, hH, hA, hB]; omega

theorem holds_of {p : Poff} {c l n} (h : Inv p c l n) {q : Poff} {m}
    (hd : ∀ k, k ≠ .strtab → q.data k = p.data k)
    (ht : Table (q.data .strtab) (l ++ m))
    (he : ∀ k, (q.sh k).entsize = (freshSh k).entsize)
    (hs : ∀ k, (q.sh k).size = BitVec.ofNat 32 (q.data k).length)
    (hl : ∀ k, (q.data k).length < 2 ^ 32)
    (hh : q.hdr.ftype = p.hdr.ftype ∧ q.hdr.name = p.hdr.name ∧ q.hdr.arch = p.hdr.arch ∧
      q.hdr.entry = p.hdr.entry) : Holds q c ∧ q.data .dbgfunc = imagesOf c.debug := by
  have hn : ∀ k, (q.sh k).size.toNat = (q.data k).length := fun k => by rw [hs, toNat_small (hl k)]
  refine ⟨⟨?_, ?_, ?_, ?_, ?_, ?_, ?_, ?_, ?_, ?_⟩, ?_⟩
  · simp only [Poff.program, hn, List.take_length, hd _ (show Sec.text ≠ .strtab by decide)]; exact h.text
  · rw [hd _ (by decide)]; exact h.rodata
  · have e : q.data .symtab = [] ++ c.symbols.flatMap (symImg (l ++ m)) := by
      rw [hd _ (by decide), h.symtab, List.nil_append]
      exact flatMap_congr' _ (fun s hs => by simp only [symImg, offOf_append (h.symIn s hs)])
    exact symLoop_spec ht (hl _) (he _) (hn _) c.symbols [] _ e
      (fun s hs => List.mem_append_left _ (h.symIn s hs)) (by
        rw [e, List.nil_append]
        exact len_le_flatMap _ _ (fun s _ => by rw [symImg, symImage_length]; decide))
  · have e : q.data .rel = [] ++ c.relocs.flatMap relImg := by rw [hd _ (by decide), h.rel, List.nil_append]
    refine ⟨_, relLoop_spec (he _) (hn _) c.relocs [] _ e (by
        rw [e, List.nil_append]
        exact len_le_flatMap _ _ (fun s _ => by simp [relImg])), ?_⟩
    rw [List.map_map]
    conv => rhs; rw [← List.map_id c.relocs]
    apply List.map_congr_left
    intro r hr
    simp only [Function.comp_apply, rli_type, rli_sym _ _ (h.relSmall r hr), id]
  · have e : q.data .filetab = [] ++ c.files.flatMap (fileImg (l ++ m)) := by
      rw [hd _ (by decide), h.filetab, List.nil_append]
      exact flatMap_congr' _ (fun s hs => by simp only [fileImg, offOf_append (h.fileIn s hs)])
    exact fileLoop_spec ht (hl _) (hn _) c.files [] 0 _ rfl e
      (fun s hs => List.mem_append_left _ (h.fileIn s hs)) (by
        rw [e, List.nil_append]
        exact len_le_flatMap _ _ (fun s _ => by simp [fileImg]))
  · have e : q.data .lineno = [] ++ c.lines.flatMap lineImg := by rw [hd _ (by decide), h.lineno, List.nil_append]
    exact rawLineLoop_spec (he _) (hn _) c.lines [] _ e (by
        rw [e, List.nil_append]
        exact len_le_flatMap _ _ (fun s _ => by simp [lineImg]))
  · rw [hh.1]; exact h.ftype
  · rw [Poff.hdrName, hh.2.1, h.name, ← offOf_append h.nameIn m]
    exact getString_off ht (List.mem_append_left _ h.nameIn) (hl _)
  · rw [hh.2.2.1]; exact h.arch
  · rw [hh.2.2.2]; exact h.entry
  · rw [hd _ (by decide)]; exact h.dbgfunc

/-- Building an object by any history of calls, writing it to a file and reading the file
gives back everything that was put in, in order.  Proved for objects with at most one file
name, and with debug records only if there is at most one relocation; the last debug
record must have a parameter for the records to be readable.  What is missing is false of
the code: `C38_violation_files`, `C38_violation_debug`, `C42_violation`. -/
theorem C38_roundtrip_partial (os : List ObjOp) (hw : ∀ o ∈ os, o.WF) (hsize : costs os + 253 < 2 ^ 32)
    (hf : (contents os).files.length ≤ 1)
    (hd : (contents os).debug = [] ∨ (contents os).relocs.length ≤ 1) :
    ∃ p f p' q, runOps create os = .ok p ∧ writeFile p = .ok (f, p') ∧ readFile f = .ok (.ok q) ∧
      Holds q (contents os) ∧
      ((∀ r, (contents os).debug.getLast? = some r → r.args ≠ []) →
        readDebug (q.data .dbgfunc) = .ok (contents os).debug) := by
  obtain ⟨p, l, h1, h2⟩ := inv_runOps os inv_create hw
  rw [Nat.zero_add] at h2
  have h2' : Inv p (contents os) l (costs os) := h2
  have g := good_of_inv h2' (by omega) hf hd
  obtain ⟨f, p', _, _, w1, _⟩ := write_spec g
  have hlen : f.length < 2 ^ 32 := by
    have := file_length g w1
    have := h2'.size
    omega
  obtain ⟨r1, ⟨m, r2, r3⟩, q, r4, r5, r6, r7, r8, r9, _, _, _⟩ := roundtrip g w1 hlen
  have := holds_of h2' (q := q) (m := m) (fun k hk => by rw [r6, r1 k hk])
    (by rw [r6, r2]; exact r3) r7 r8 r9 (by rw [r5]; exact ⟨rfl, rfl, rfl, rfl⟩)
  refine ⟨p, f, p', q, h1, w1, r4, this.1, ?_⟩
  intro hlast
  rw [this.2]
  have := debugLoop_spec (contents os).debug [] [] ((imagesOf (contents os).debug).length + 1)
    (fun r hr => Nat.lt_of_le_of_lt (h2'.dbgSmall r hr) (by decide))
    (by have := imagesOf_length (contents os).debug; omega) (by simp) (fun _ => hlast)
  simpa [readDebug] using this

/-- A history exercising every kind of call. -/
def sampleOps : List ObjOp :=
  [.ftype 1 [0x41], .arch 2, .prog 0x12, .prog 0x34, .ro [0x68, 0x69] 7,
   .sym ⟨3, 1, 0, some [0x66, 0x6F], 5, 2⟩, .sym ⟨2, 0, 1, none, 9, 4⟩, .reloc 1 1 0x22,
   .file [0x66, 0x2E, 0x70], .line 10 0 0, .line 11 0 4, .dbg ⟨5, 2, []⟩, .dbg ⟨6, 0, [2, 4]⟩, .entry 8]

example : (∀ o ∈ sampleOps, o.WF) ∧ costs sampleOps + 253 < 2 ^ 32 ∧
    (contents sampleOps).files.length ≤ 1 ∧ (contents sampleOps).relocs.length ≤ 1 ∧
    (contents sampleOps).symbols.length = 2 ∧
    (∀ r, (contents sampleOps).debug.getLast? = some r → r.args ≠ []) := by
  refine ⟨?_, by decide, by decide, by decide, by decide, ?_⟩
  · intro o ho
    simp only [sampleOps, List.mem_cons, List.not_mem_nil, or_false] at ho
    rcases ho with rfl | rfl | rfl | rfl | rfl | rfl | rfl | rfl | rfl | rfl | rfl | rfl | rfl | rfl <;>
      simp [ObjOp.WF, IsCStr, textOf]
  · intro r hr
    have : (contents sampleOps).debug.getLast? = some ⟨6, 0, [2, 4]⟩ := by decide
    rw [this] at hr; injection hr with hr; subst hr; simp

/-! ### Rejection -/

theorem readAt_take {f : List Byte} {n off len d} (h : readAt (f.take n) off len = some d) :
    readAt f off len = some d ∧ (0 < len → off + len ≤ n) := by
  unfold readAt at h ⊢
  simp only [] at h ⊢
  split at h
  · next hl =>
    injection h with h
    rw [List.drop_take, List.take_take] at hl h
    have h1 : len ≤ n - off := by
      simp only [List.length_take, List.length_drop] at hl; omega
    rw [Nat.min_eq_left h1] at hl h
    rw [if_pos hl, h]
    refine ⟨rfl, ?_⟩
    intro hp; omega
  · cases h

theorem readHdrs_take {f : List Byte} {n shs} : ∀ (cnt off : Nat) (sh sh' : Sec → SecHdr),
    readHdrs f shs cnt off sh = .ok sh' →
    (∃ e, readHdrs (f.take n) shs cnt off sh = .error e) ∨ readHdrs (f.take n) shs cnt off sh = .ok sh' := by
  intro cnt
  induction cnt with
  | zero => intro off sh sh' h; exact Or.inr h
  | succ cnt ih =>
    intro off sh sh' h
    cases ha : readAt (f.take n) off 20 with
    | none => left; exact ⟨.readError, by simp only [readHdrs, ha]⟩
    | some d =>
      have := (readAt_take ha).1
      simp only [readHdrs, this] at h
      simp only [readHdrs, ha]
      cases hdst : destOf (secHdrOf d).swap with
      | none => rw [hdst] at h; cases h
      | some k =>
        rw [hdst] at h
        exact ih _ _ _ h

theorem readData_take {f : List Byte} {n : Nat} : ∀ (ks : List Sec) (p q : Poff),
    readData f ks p = .ok (.ok q) → q.sh = p.sh ∧
    (∀ k ∈ ks, (p.sh k).size ≠ 0 → n < (p.sh k).offset.toNat + (p.sh k).size.toNat →
      readData (f.take n) ks p = .ok (.error .readError)) := by
  intro ks
  induction ks with
  | nil => intro p q h; injection h with h; injection h with h; subst h; simp
  | cons j ks ih =>
    intro p q h
    simp only [readData] at h ⊢
    by_cases hz : (p.sh j).size ≠ 0
    · rw [if_pos hz] at h ⊢
      cases ha : readAt f (p.sh j).offset.toNat (p.sh j).size.toNat with
      | none => rw [ha] at h; cases h
      | some d =>
        rw [ha] at h
        simp only at h
        cases hs : Poff.swapData ({ p with data := upd p.data j d }.alloced j d.length) j with
        | ub => rw [hs] at h; cases h
        | hang => rw [hs] at h; cases h
        | ok d2 =>
          rw [hs] at h
          simp only [Res.ok_bind] at h
          obtain ⟨i1, i2⟩ := ih _ _ h
          have hsh : (Poff.alloced { p with data := upd p.data j d } j d.length).sh = p.sh := by
            cases j <;> rfl
          refine ⟨by rw [i1]; exact hsh, ?_⟩
          intro k hk hkz hn
          cases hb : readAt (f.take n) (p.sh j).offset.toNat (p.sh j).size.toNat with
          | none => rfl
          | some d' =>
            obtain ⟨b1, b2⟩ := readAt_take hb
            rw [ha] at b1; injection b1 with b1; subst b1
            have hpos : 0 < (p.sh j).size.toNat := by
              rcases Nat.eq_zero_or_pos (p.sh j).size.toNat with h0 | h0
              · exact absurd (BitVec.eq_of_toNat_eq (by simpa using h0)) hz
              · exact h0
            have hkj : k ≠ j := by rintro rfl; have := b2 hpos; omega
            have hk' : k ∈ ks := by
              rcases List.mem_cons.mp hk with h | h
              · exact absurd h hkj
              · exact h
            simp only [hs, Res.ok_bind]
            exact i2 k hk' (by simp only [hsh]; exact hkz) (by simp only [hsh]; exact hn)
    · rw [if_neg hz] at h ⊢
      obtain ⟨i1, i2⟩ := ih _ _ h
      refine ⟨i1, ?_⟩
      intro k hk hkz hn
      rcases List.mem_cons.mp hk with h | h
      · subst h; exact absurd hkz hz
      · exact i2 k h hkz hn

/-- The numbers handed back when something is added to an object: a symbol gets the number of
symbols added before it, a file name the number of file names, a string constant the number of
bytes of constant data before it.  These are the numbers that relocations, line numbers and
instructions refer to, and by `C38_roundtrip_partial` the positions at which a reader finds the
items. -/
theorem C38_numbers (os : List ObjOp) (hw : ∀ o ∈ os, o.WF) :
    ∃ p, runOps create os = .ok p ∧
      (∀ s, (ObjOp.sym s).WF → ∃ q, p.addSym s = .ok ((contents os).symbols.length, q)) ∧
      (∀ n, (ObjOp.file n).WF → ∃ q, p.addFile (some n) = .ok ((contents os).files.length, q)) ∧
      (∀ s pad, (p.addRo s pad).1 = (contents os).rodata.length) := by
  obtain ⟨p, l, h1, h2⟩ := inv_runOps os inv_create hw
  have h2 : Inv p (contents os) l _ := h2
  have len : ∀ {α : Type} (f : α → List Byte) (k : Nat) (xs : List α), (∀ x, (f x).length = k) →
      (xs.flatMap f).length = xs.length * k := by
    intro α f k xs hk
    induction xs with
    | nil => simp
    | cons x xs ih => rw [List.flatMap_cons, List.length_append, ih, hk, List.length_cons, Nat.succ_mul]; omega
  refine ⟨p, h1, ?_, ?_, ?_⟩
  · intro s hs
    obtain ⟨m, q, e, _, i, _⟩ := inv_addStr h2 s.name hs
    refine ⟨q.app .symtab (symImg (l ++ m) s), ?_⟩
    simp only [Poff.addSym, e, Res.ok_bind]
    rw [i.symtab, len (symImg (l ++ m)) 16 _ (fun x => symImage_length _ _), Nat.mul_div_cancel _ (by decide)]
    rfl
  · intro n hn
    obtain ⟨m, q, e, _, i, _⟩ := inv_addStr h2 (some n) hn
    simp only [Poff.addFile, e, Res.ok_bind]
    rw [i.filetab, len _ 4 _ (fun x => by simp [fileImg]), Nat.mul_div_cancel _ (by decide)]
    exact ⟨_, rfl⟩
  · intro s pad
    show (p.data .rodata).length = _
    rw [h2.rodata]

example : ∃ p, runOps create sampleOps = .ok p ∧
    ((p.addSym ⟨1, 0, 0, some [0x7a], 3, 4⟩).bind fun r => .ok r.1) = .ok 2 := ⟨_, rfl, by decide +kernel⟩

/-- Any readable file, cut before the end of one of its sections, is rejected. -/
theorem C38_cut_section {f : List Byte} {q : Poff} (h : readFile f = .ok (.ok q)) (k : Sec)
    (hk : (q.sh k).size ≠ 0) (n : Nat) (hn : n < (q.sh k).offset.toNat + (q.sh k).size.toNat) :
    ∃ e, readFile (f.take n) = .ok (.error e) := by
  unfold readFile at h
  cases h1 : readHdr f with
  | error e => rw [h1] at h; cases h
  | ok hd =>
    rw [h1] at h
    simp only at h
    cases h2 : readHdrs f hd.shsize.toNat hd.shnum.toNat hd.shoff.toNat create.sh with
    | error e => rw [h2] at h; cases h
    | ok sh =>
      rw [h2] at h
      simp only at h
      obtain ⟨r1, r2⟩ := readData_take (n := n) _ _ _ h
      have hro : k ∈ readOrder := by cases k <;> simp [readOrder]
      have hh : (∃ e, readHdr (f.take n) = .error e) ∨ readHdr (f.take n) = .ok hd := by
        unfold readHdr at h1 ⊢
        cases ha : readAt (f.take n) 0 24 with
        | none => left; exact ⟨_, rfl⟩
        | some d =>
          right
          rw [(readAt_take ha).1] at h1
          exact h1
      unfold readFile
      rcases hh with ⟨e, he⟩ | he
      · rw [he]; exact ⟨e, rfl⟩
      · rw [he]
        simp only
        rcases readHdrs_take (n := n) _ _ _ _ h2 with ⟨e, hr⟩ | hr
        · rw [hr]; exact ⟨e, rfl⟩
        · rw [hr]
          simp only
          rw [r1] at hk hn
          exact ⟨_, r2 k hro hk hn⟩

/-- Every proper prefix of a file written from an object built by calls (under the
conditions of `C38_roundtrip_partial`) is rejected. -/
theorem C38_truncated (os : List ObjOp) (hw : ∀ o ∈ os, o.WF) (hsize : costs os + 253 < 2 ^ 32)
    (hf : (contents os).files.length ≤ 1)
    (hd : (contents os).debug = [] ∨ (contents os).relocs.length ≤ 1)
    {p f p'} (hr : runOps create os = .ok p) (hwr : writeFile p = .ok (f, p')) (n : Nat) (hn : n < f.length) :
    ∃ e, readFile (f.take n) = .ok (.error e) := by
  obtain ⟨p1, l, h1, h2⟩ := inv_runOps os inv_create hw
  rw [hr] at h1; injection h1 with h1; subst h1
  rw [Nat.zero_add] at h2
  have h2' : Inv p (contents os) l (costs os) := h2
  have g := good_of_inv h2' (by omega) hf hd
  have hlen : f.length < 2 ^ 32 := by
    have := file_length g hwr
    have := h2'.size
    omega
  obtain ⟨_, _, q, r4, _, _, _, _, _, r10, r11, _⟩ := roundtrip g hwr hlen
  exact C38_cut_section r4 .strtab r10 n (by rw [r11]; exact hn)

/-- A file that does not start with the four bytes `POFF`, whose version byte is not 1, or
that is shorter than a header is rejected. -/
theorem C38_foreign (f : List Byte)
    (h : f.take 4 ≠ [0x50, 0x4F, 0x46, 0x46] ∨ f.getD 4 0 ≠ 1 ∨ f.length < 24) :
    ∃ e, readFile f = .ok (.error e) := by
  unfold readFile readHdr
  cases ha : readAt f 0 24 with
  | none => exact ⟨_, rfl⟩
  | some d =>
    unfold readAt at ha
    simp only [List.drop_zero] at ha
    split at ha
    · next hl =>
      injection ha with ha
      have h4 : d.take 4 = f.take 4 := by rw [← ha, List.take_take]; rfl
      have h5 : d.getD 4 0 = f.getD 4 0 := by
        rw [← ha]; simp [List.getD_eq_getElem?_getD]
      have h6 : ¬ f.length < 24 := by simp only [List.length_take] at hl; omega
      have : (fileHdrOf d).swap.ident ≠ [0x50, 0x4F, 0x46, 0x46] ∨ (fileHdrOf d).swap.version ≠ 1 := by
        show d.take 4 ≠ _ ∨ d.getD 4 0 ≠ 1
        rw [h4, h5]
        rcases h with h | h | h
        · exact Or.inl h
        · exact Or.inr h
        · exact absurd h h6
      simp only [if_pos this]
      exact ⟨_, rfl⟩
    · cases ha

example : ∃ p f p', runOps create sampleOps = .ok p ∧ writeFile p = .ok (f, p') ∧ 100 < f.length := by
  refine ⟨_, _, _, rfl, rfl, ?_⟩
  decide +kernel

/-! ### Violations -/

theorem swapField_ub {alloc : Nat} {d : List Byte} {i : Nat} (h1 : d.length < i + 4) (h2 : alloc < i + 4) :
    swapField alloc d i true = .ub := by
  simp only [swapField]
  rw [if_neg (by simp; omega), if_neg (by simp; omega)]

/-- The file-name swap cannot stay inside the table it was given. -/
theorem swapFile_grow (N : Nat) (hN : 5 ≤ N) : ∀ (fuel i : Nat) (d : List Byte) {r}, d.length = N → i < N →
    swapFileLoop N 4 N fuel i d = .ok r → False := by
  intro fuel
  induction fuel with
  | zero =>
    intro i d r hd hiN h
    unfold swapFileLoop at h
    rw [if_pos hiN] at h; cases h
  | succ fuel ih =>
    intro i d r hd hiN h
    unfold swapFileLoop at h
    rw [if_pos hiN] at h
    by_cases hc : 4 * i + 4 ≤ N
    · have h0 : d = d.take (4 * i) ++ ((d.drop (4 * i)).take 4 ++ (d.drop (4 * i)).drop 4) := by
        rw [List.take_append_drop, List.take_append_drop]
      have hf := swapField_wide N (d.take (4 * i)) ((d.drop (4 * i)).take 4) ((d.drop (4 * i)).drop 4) (4 * i)
        (by simp; omega) (by simp; omega)
      rw [← h0] at hf
      rw [hf] at h
      simp only [Res.ok_bind] at h
      exact ih (i + 4) _ (by simp; omega) (by omega) h
    · rw [swapField_ub (by omega) (by omega)] at h
      cases h

/-- Violation of C38: no file whose file-name table holds more than one name (entries of 4
bytes) can be read, because the byte index is used to subscript words. -/
theorem C38_violation_files {f : List Byte} {q : Poff} (h : readFile f = .ok (.ok q))
    (he : (q.sh .filetab).entsize = 4) : (q.sh .filetab).size.toNat ≤ 4 := by
  have key : ∀ (ks : List Sec) (p q : Poff), readData f ks p = .ok (.ok q) → Sec.filetab ∈ ks →
      (p.sh .filetab).entsize = 4 → (p.sh .filetab).size.toNat ≤ 4 := by
    intro ks
    induction ks with
    | nil => intro p q _ h; simp at h
    | cons j ks ih =>
      intro p q h hm he
      simp only [readData] at h
      by_cases hz : (p.sh j).size ≠ 0
      · rw [if_pos hz] at h
        cases ha : readAt f (p.sh j).offset.toNat (p.sh j).size.toNat with
        | none => rw [ha] at h; cases h
        | some d =>
          rw [ha] at h
          simp only at h
          have hsh : (Poff.alloced { p with data := upd p.data j d } j d.length).sh = p.sh := by
            cases j <;> rfl
          cases hs : Poff.swapData ({ p with data := upd p.data j d }.alloced j d.length) j with
          | ub => rw [hs] at h; cases h
          | hang => rw [hs] at h; cases h
          | ok d2 =>
            rw [hs] at h
            simp only [Res.ok_bind] at h
            by_cases hj : j = .filetab
            · subst hj
              have hdl : d.length = (p.sh .filetab).size.toNat := by
                unfold readAt at ha
                simp only at ha
                split at ha
                · next hl => injection ha with ha; rw [← ha]; exact hl
                · cases ha
              by_cases h4 : (p.sh .filetab).size.toNat ≤ 4
              · exact h4
              · exfalso
                have e4 : (p.sh .filetab).entsize.toNat = 4 := by rw [he]; rfl
                simp only [Poff.swapData, Poff.alloced, upd, if_true, e4, hdl] at hs
                generalize hN : (p.sh .filetab).size.toNat = N at hs h4 hdl
                have hs1 : swapFileLoop N 4 N (N + 1) 0 d = .ok d2 := hs
                exact swapFile_grow N (by omega) (N + 1) 0 d hdl (by omega) hs1
            · have hm' : Sec.filetab ∈ ks := by
                rcases List.mem_cons.mp hm with h | h
                · exact absurd h.symm hj
                · exact h
              have := ih _ _ h hm' (by simp only [hsh]; exact he)
              simpa only [hsh] using this
      · rw [if_neg hz] at h
        by_cases hj : j = .filetab
        · subst hj
          have : (p.sh .filetab).size = 0 := by
            by_cases h0 : (p.sh .filetab).size = 0
            · exact h0
            · exact absurd h0 hz
          rw [this]; decide
        · have hm' : Sec.filetab ∈ ks := by
            rcases List.mem_cons.mp hm with h | h
            · exact absurd h.symm hj
            · exact h
          exact ih _ _ h hm' he
  unfold readFile at h
  cases h1 : readHdr f with
  | error e => rw [h1] at h; cases h
  | ok hd =>
    rw [h1] at h
    simp only at h
    cases h2 : readHdrs f hd.shsize.toNat hd.shnum.toNat hd.shoff.toNat create.sh with
    | error e => rw [h2] at h; cases h
    | ok sh =>
      rw [h2] at h
      simp only at h
      obtain ⟨r1, _⟩ := readData_take (n := 0) _ _ _ h
      rw [r1] at he ⊢
      exact key _ _ _ h (by decide) he

/-- An object with two file names can be built and written, but reading the file is
undefined behaviour. -/
theorem C38_violation_files_example : ∃ p f p',
    runOps create [.file [0x61], .file [0x62]] = .ok p ∧ writeFile p = .ok (f, p') ∧
    readFile f = .ub :=
  ⟨_, _, _, rfl, rfl, by rfl⟩

/-- Is the outcome undefined behaviour? -/
def isUb {α : Type} : Res α → Bool
  | .ub => true
  | _ => false

theorem ub_of_isUb {os : List ObjOp}
    (h : (match runOps create os with | .ok p => isUb (writeFile p) | _ => false) = true) :
    ∃ p, runOps create os = .ok p ∧ writeFile p = .ub := by
  cases hr : runOps create os with
  | ub => rw [hr] at h; cases h
  | hang => rw [hr] at h; cases h
  | ok p =>
    rw [hr] at h
    refine ⟨p, rfl, ?_⟩
    cases hw : writeFile p with
    | ub => rfl
    | ok v => simp only [hw] at h; cases h
    | hang => simp only [hw] at h; cases h

/-- Violation of C38: an object with two relocations and a debug record with one parameter
cannot be written: undefined behaviour. -/
theorem C38_violation_debug : ∃ p,
    runOps create [.reloc 1 1 2, .reloc 1 1 6, .dbg ⟨5, 2, [2]⟩] = .ok p ∧ writeFile p = .ub :=
  ub_of_isUb (by decide +kernel)

end Pas.Props
