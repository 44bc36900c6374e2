import Verif.Lemmas.PoffFile
/-! The object-level round trip. -/
namespace Pas.Poff
open Pas.Spec

theorem put_data (p : Poff) (k j : Sec) (d : List Byte) :
    (p.put k d).data j = if j = k then d else p.data j := rfl

theorem addString_len {tab s i t} (h : addString tab s = .ok (i, t)) :
    t.length ≤ (tab.getD [0#8]).length + (textOf s).length + 1 := by
  simp only [addString] at h
  cases hf : findString (some (tab.getD [0#8])) s with
  | ub => rw [hf] at h; cases h
  | hang => rw [hf] at h; cases h
  | ok r =>
    rw [hf] at h
    simp only [Res.ok_bind] at h
    cases r with
    | some j =>
      injection h with h; injection h with _ h; subst h; omega
    | none =>
      cases s with
      | none => injection h with h; injection h with _ h; subst h; omega
      | some s =>
        simp only at h
        split at h
        · injection h with h; injection h with _ h; subst h; omega
        · injection h with h; injection h with _ h; subst h; simp [textOf]; omega

theorem addStr_len {p : Poff} {s r q} (h : p.addStr s = .ok (r, q)) :
    (q.data .strtab).length ≤ (p.data .strtab).length + (textOf s).length + 2 := by
  unfold Poff.addStr at h
  cases ha : addString p.strs s with
  | ub => rw [ha] at h; cases h
  | hang => rw [ha] at h; cases h
  | ok v =>
    obtain ⟨i, t⟩ := v
    rw [ha] at h
    simp only [Res.ok_bind] at h
    injection h with h; injection h with _ h
    subst h
    have h1 := addString_len ha
    have h2 : (p.strs.getD [0#8]).length ≤ (p.data .strtab).length + 1 := by
      unfold Poff.strs
      split
      · simp
      · simp
    simp only [put_data, if_true]; omega

theorem writeHdrs_len : ∀ (ks : List Sec) (p : Poff) (off : U32) (o : List Byte) (p' : Poff),
    writeHdrs ks p off = .ok (o, p') →
    (p'.data .strtab).length ≤ (p.data .strtab).length + (ks.map (fun k => k.name.length + 2)).sum := by
  intro ks
  induction ks with
  | nil => intro p off o p' h; injection h with h; injection h with _ h; subst h; simp
  | cons k ks ih =>
    intro p off o p' h
    simp only [writeHdrs] at h
    split at h
    · cases ha : p.addStr (some k.name) with
      | ub => rw [ha] at h; cases h
      | hang => rw [ha] at h; cases h
      | ok v =>
        obtain ⟨r, q⟩ := v
        have h1 := addStr_len ha
        rw [ha] at h
        simp only [Res.ok_bind] at h
        cases hb : writeHdrs ks { q with sh := upd q.sh k ((q.sh k).placed (BitVec.ofNat 32 r) off) }
            (off + ((q.sh k).placed (BitVec.ofNat 32 r) off).size) with
        | ub => rw [hb] at h; cases h
        | hang => rw [hb] at h; cases h
        | ok v2 =>
          obtain ⟨o2, p2⟩ := v2
          rw [hb] at h
          simp only [Res.ok_bind] at h
          injection h with h; injection h with _ h
          subst h
          have h2 := ih _ _ _ _ hb
          simp only [textOf, Option.getD_some] at h1
          simp only [List.map_cons, List.sum_cons]
          simp only at h2
          omega
    · have := ih _ _ _ _ h
      simp only [List.map_cons, List.sum_cons]; omega

/-- Objects that can be written and read back. -/
structure Good (p : Poff) (l : List (List Byte)) : Prop where
  ident : p.hdr.ident = [0x50, 0x4F, 0x46, 0x46]
  version : p.hdr.version = 1
  shsize : p.hdr.shsize = 20
  shoff : p.hdr.shoff = 24
  typed : ∀ k, (p.sh k).stype = (freshSh k).stype ∧ (p.sh k).flags = (freshSh k).flags ∧
    (p.sh k).entsize = (freshSh k).entsize
  sizes : ∀ k, (p.sh k).size = BitVec.ofNat 32 (p.data k).length
  small : ∀ k, (p.data k).length < 2 ^ 32
  strs : StrOK p l
  symtab : (p.data .symtab).length % 16 = 0
  rel : (p.data .rel).length % 8 = 0
  lineno : (p.data .lineno).length % 8 = 0
  filetab : (p.data .filetab).length = 0 ∨ (p.data .filetab).length = 4
  dbgfunc : p.data .dbgfunc = [] ∨ (p.data .rel).length ≤ 12

theorem toNat_small {n : Nat} (h : n < 2 ^ 32) : (BitVec.ofNat 32 n).toNat = n := by
  simp [Nat.mod_eq_of_lt h]

theorem swapFile_one (d : List Byte) (h : d.length = 4) (fa : Nat) :
    swapFileLoop fa 4 4 5 0 d = .ok d.reverse := by
  have h1 := swapField_wide fa [] d [] 0 rfl h
  simp only [List.nil_append, List.append_nil] at h1
  simp [swapFileLoop, h1]

/-- Sections of a good object that are written can be swapped and swapped back. -/
theorem twoWay_of (ents : Sec → Word) (he : ∀ k, ents k = (freshSh k).entsize) (k : Sec) (d : List Byte)
    (rs : Nat) (hsym : k = .symtab → d.length % 16 = 0) (hrel : k = .rel → d.length % 8 = 0)
    (hline : k = .lineno → d.length % 8 = 0)
    (hfile : k = .filetab → d.length = 4) (hdbg : k = .dbgfunc → rs ≤ 12) :
    ∃ d', TwoWay0 k (ents k).toNat d.length rs d d' := by
  rw [he]
  cases k with
  | text => exact ⟨d, rfl, fun _ _ => ⟨rfl, rfl⟩⟩
  | rodata => exact ⟨d, rfl, fun _ _ => ⟨rfl, rfl⟩⟩
  | strtab => exact ⟨d, rfl, fun _ _ => ⟨rfl, rfl⟩⟩
  | symtab =>
    obtain ⟨d', h1, h2, h3⟩ := swapLoop_twice symLayout d (hsym rfl)
    refine ⟨d', h2, fun _ _ => ⟨h1 _, ?_⟩⟩
    show swapLoop d'.length symFields 16 d.length (d.length + 1) 0 d' = _
    exact h3 _
  | rel =>
    obtain ⟨d', h1, h2, h3⟩ := swapLoop_twice relLayout d (hrel rfl)
    exact ⟨d', h2, fun _ _ => ⟨h1 _, h3 _⟩⟩
  | lineno =>
    obtain ⟨d', h1, h2, h3⟩ := swapLoop_twice lineLayout d (hline rfl)
    exact ⟨d', h2, fun _ _ => ⟨h1 _, h3 _⟩⟩
  | filetab =>
    have hl := hfile rfl
    refine ⟨d.reverse, by simp, fun fa da => ⟨?_, ?_⟩⟩
    · show swapFileLoop fa 4 d.length (d.length + 1) 0 d = _
      rw [hl]; exact swapFile_one d hl fa
    · show swapFileLoop fa 4 d.length (d.length + 1) 0 d.reverse = _
      rw [hl, swapFile_one d.reverse (by simpa) fa]; simp
  | dbgfunc =>
    have hl := hdbg rfl
    have : ∀ da x, swapDebugLoop da rs (rs + 1) 0 x = .ok x := by
      intro da x; simp only [swapDebugLoop]; rw [if_neg (by omega)]
    exact ⟨d, rfl, fun _ da => ⟨this _ _, this _ _⟩⟩

theorem destOf_typed {h : SecHdr} {k : Sec} (h1 : h.stype = (freshSh k).stype)
    (h2 : h.flags = (freshSh k).flags) : destOf h = some k := by
  cases k <;> simp [destOf, h1, h2, freshSh] <;> decide

/-- Total length of some sections. -/
def sumLen (D : Sec → List Byte) (a : List Sec) : Nat := (a.flatMap D).length

theorem sumLen_cons (D : Sec → List Byte) (k : Sec) (a) : sumLen D (k :: a) = (D k).length + sumLen D a := by
  simp [sumLen, List.flatMap_cons]

theorem sumSizes_eq (sh : Sec → SecHdr) (D : Sec → List Byte) (h : ∀ k, (sh k).size = BitVec.ofNat 32 (D k).length)
    (a : List Sec) : sumSizes sh a = BitVec.ofNat 32 (sumLen D a) := by
  induction a with
  | nil => rfl
  | cons k a ih =>
    rw [sumLen_cons, BitVec.ofNat_add, ← h k, ← ih]; rfl

/-- What was written: `f` is header, section headers, section data. -/
theorem write_spec {p : Poff} {l} (g : Good p l) :
    ∃ f p' m dimg, writeFile p = .ok (f, p') ∧
      p'.hdr = { p.hdr with shnum := BitVec.ofNat 16 p.count } ∧
      (∀ k, k ≠ .strtab → p'.data k = p.data k) ∧
      p'.data .strtab = encStrs (l ++ m) ∧ Table (encStrs (l ++ m)) (l ++ m) ∧
      (∀ k, (p'.sh k).stype = (freshSh k).stype ∧ (p'.sh k).flags = (freshSh k).flags ∧
        (p'.sh k).entsize = (freshSh k).entsize) ∧
      (∀ k, (p'.sh k).size = BitVec.ofNat 32 (p'.data k).length) ∧
      p'.have = p.have ∧
      f = p'.hdr.swap.image ++
        ((writeOrder.filter p.have).flatMap (fun k => (p'.sh k).swap.image) ++
         (writeOrder.filter p.have).flatMap dimg) ∧
      (∀ k, p.have k = true → (p'.data .strtab).length < 2 ^ 32 → p'.TwoWay k (dimg k)) ∧
      (∀ k, p.have k = true → (dimg k).length = (p'.data k).length) ∧
      (p'.data .strtab).length ≤ (p.data .strtab).length + 69 ∧
      ∀ a k b, writeOrder.filter p.have = a ++ k :: b →
        (p'.sh k).offset = BitVec.ofNat 32 (24 + 20 * (writeOrder.filter p.have).length +
          sumLen p'.data a) := by
  obtain ⟨out, p', m, c1, c2, c3, c4, c5, c6, c7, c8, c9, c10, c11, c12, c13⟩ :=
    writeHdrs_spec [.text, .rodata, .symtab, .rel, .filetab, .lineno, .dbgfunc] (by decide)
      (by decide) { p with hdr := { p.hdr with shnum := BitVec.ofNat 16 p.count } }
      (p.hdr.shoff + (BitVec.ofNat 16 p.count).setWidth 32 * p.hdr.shsize.setWidth 32) l g.strs
  have hsz : ∀ k, (p'.sh k).size = BitVec.ofNat 32 (p'.data k).length := by
    intro k
    by_cases hk : k = .strtab
    · subst hk; exact c11
    · rw [c10 k hk, c5 k hk]; exact g.sizes k
  have hty : ∀ k, (p'.sh k).stype = (freshSh k).stype ∧ (p'.sh k).flags = (freshSh k).flags ∧
        (p'.sh k).entsize = (freshSh k).entsize := by
    intro k
    obtain ⟨d1, d2, d3⟩ := c9 k
    obtain ⟨e1, e2, e3⟩ := g.typed k
    exact ⟨d1.trans e1, d2.trans e2, d3.trans e3⟩
  have hhave : p'.have = p.have := have_congr c10
  have htw : ∀ k, ∃ d', (p.have k = true → TwoWay0 k (p'.sh k).entsize.toNat (p'.data k).length
      (p'.sh .rel).size.toNat (p'.data k) d') := by
    intro k
    by_cases hk : p.have k = true
    · obtain ⟨d', hd⟩ := twoWay_of (fun k => (p'.sh k).entsize) (fun k => (hty k).2.2) k (p'.data k)
        (p'.sh .rel).size.toNat
        (by rintro rfl; rw [c5 _ (by decide)]; exact g.symtab)
        (by rintro rfl; rw [c5 _ (by decide)]; exact g.rel)
        (by rintro rfl; rw [c5 _ (by decide)]; exact g.lineno)
        (by rintro rfl; rw [c5 _ (by decide)]
            rcases g.filetab with h | h
            · exfalso
              simp only [Poff.have, g.sizes] at hk
              rw [h] at hk
              exact absurd hk (by decide)
            · exact h)
        (by rintro rfl
            rcases g.dbgfunc with h | h
            · exfalso
              simp only [Poff.have, g.sizes] at hk
              rw [h] at hk
              exact absurd hk (by decide)
            · rw [hsz, c5 _ (by decide), toNat_small (g.small _)]; exact h)
      exact ⟨d', fun _ => hd⟩
    · exact ⟨[], fun h => absurd h hk⟩
  obtain ⟨dimg, hdimg⟩ := Classical.axiomOfChoice htw
  have hcnt : (writeOrder.filter p.have).length = p.count := rfl
  have hcnt8 : p.count ≤ 8 := by
    have := List.length_filter_le p.have writeOrder
    exact this
  have hoff : (p.hdr.shoff + (BitVec.ofNat 16 p.count).setWidth 32 * p.hdr.shsize.setWidth 32)
      = BitVec.ofNat 32 (24 + 20 * p.count) := by
    rw [g.shsize, g.shoff]
    generalize p.count = n at hcnt8 ⊢
    apply BitVec.eq_of_toNat_eq
    simp
    have : n % 65536 = n := Nat.mod_eq_of_lt (by omega)
    rw [this]; omega
  have hraw : ∀ k, p.have k = true → (p'.data .strtab).length < 2 ^ 32 → p'.TwoWay k (dimg k) := by
    intro k hk hs
    have := hdimg k hk
    have hn : (p'.sh k).size.toNat = (p'.data k).length := by
      rw [hsz]
      apply toNat_small
      by_cases hk' : k = .strtab
      · subst hk'; exact hs
      · rw [c5 k hk']; exact g.small k
    unfold Poff.TwoWay
    rw [hn]; exact this
  have hraw' : ∀ k, p.have k = true → p'.TwoWay k (dimg k) := by
    intro k hk
    by_cases hk' : k = .strtab
    · subst hk'
      have h0 := hdimg .strtab hk
      exact ⟨h0.1, fun fa da => h0.2 fa da⟩
    · have h0 := hdimg k hk
      have hn : (p'.sh k).size.toNat = (p'.data k).length := by
        rw [hsz]
        apply toNat_small
        rw [c5 k hk']; exact g.small k
      unfold Poff.TwoWay
      rw [hn]; exact h0
  have hw := writeData_spec dimg writeOrder p' (by intro k _ hk; exact hraw' k (by rw [← hhave]; exact hk))
  have hwo : ([.text, .rodata, .symtab, .rel, .filetab, .lineno, .dbgfunc] : List Sec) ++ [Sec.strtab] = writeOrder := rfl
  rw [hwo] at c1 c12 c13
  refine ⟨_, p', m, dimg, ?_, c2, c5, c6, c7, hty, hsz, hhave, rfl, hraw, ?_, ?_, ?_⟩
  · simp only [writeFile, c1, Res.ok_bind, hw, c12, hhave, c2]
    rfl
  · intro k hk; exact (hdimg k hk).1
  · exact writeHdrs_len _ _ _ _ _ c1
  · intro a k b hab
    rw [c13 a k b hab, hoff, sumSizes_eq p'.sh p'.data hsz, hcnt, ← BitVec.ofNat_add]

theorem flatMap_len {D E : Sec → List Byte} (a : List Sec) (h : ∀ k ∈ a, (D k).length = (E k).length) :
    (a.flatMap D).length = (a.flatMap E).length := by
  induction a with
  | nil => rfl
  | cons k a ih =>
    simp only [List.flatMap_cons, List.length_append]
    rw [h k (by simp), ih (fun j hj => h j (by simp [hj]))]

theorem hdrs_len (sh : Sec → SecHdr) (a : List Sec) :
    (a.flatMap (fun k => (sh k).swap.image)).length = 20 * a.length := by
  induction a with
  | nil => rfl
  | cons k a ih =>
    simp only [List.flatMap_cons, List.length_append, SecHdr.image_length, ih, List.length_cons]; omega

/-- The section's bytes lie where its header says. -/
theorem section_at {H A : List Byte} {P : List Sec} {D : Sec → List Byte} {a k b} (h : P = a ++ k :: b) :
    (H ++ (A ++ P.flatMap D)).drop (H.length + A.length + (a.flatMap D).length)
      = D k ++ b.flatMap D := by
  subst h
  have e : H ++ (A ++ (a ++ k :: b).flatMap D) = (H ++ A ++ a.flatMap D) ++ (D k ++ b.flatMap D) := by
    simp [List.flatMap_append, List.flatMap_cons]
  rw [e, ← List.length_append, ← List.length_append, List.drop_left]

theorem mem_split {k : Sec} {P : List Sec} (h : k ∈ P) : ∃ a b, P = a ++ k :: b :=
  List.append_of_mem h

theorem ident_swap (h : FileHdr) : h.swap.ident = h.ident ∧ h.swap.version = h.version := ⟨rfl, rfl⟩

/-- Reading back a file that was written. -/
theorem roundtrip {p : Poff} {l} (g : Good p l) {f : List Byte} {p' : Poff}
    (hw : writeFile p = .ok (f, p')) (hf : f.length < 2 ^ 32) :
    (∀ k, k ≠ .strtab → p'.data k = p.data k) ∧
    (∃ m, p'.data .strtab = encStrs (l ++ m) ∧ Table (encStrs (l ++ m)) (l ++ m)) ∧
    ∃ q, readFile f = .ok (.ok q) ∧
      q.hdr = { p.hdr with shnum := BitVec.ofNat 16 p.count } ∧ (∀ k, q.data k = p'.data k) ∧
      (∀ k, (q.sh k).entsize = (freshSh k).entsize) ∧
      (∀ k, (q.sh k).size = BitVec.ofNat 32 (q.data k).length) ∧
      (∀ k, (q.data k).length < 2 ^ 32) ∧
      (q.sh .strtab).size ≠ 0 ∧
      (q.sh .strtab).offset.toNat + (q.sh .strtab).size.toNat = f.length ∧
      (∀ k, (q.sh k).stype = (freshSh k).stype ∧ (q.sh k).flags = (freshSh k).flags) := by
  obtain ⟨f', p1, m, dimg, w1, w2, w3, w4, w5, w6, w7, w8, w9, w10, w11, _, w12⟩ := write_spec g
  rw [hw] at w1
  injection w1 with w1; injection w1 with e1 e2
  subst e1 e2
  refine ⟨w3, ⟨m, w4, w5⟩, ?_⟩
  generalize hP : writeOrder.filter p.have = P at w9 w12
  have hPhave : ∀ k, k ∈ P ↔ p.have k = true := by
    intro k; rw [← hP]
    simp only [List.mem_filter, and_iff_right_iff_imp]
    intro _; cases k <;> simp [writeOrder]
  have hidl : p'.hdr.swap.ident.length = 4 := by
    rw [(ident_swap _).1, w2]; simp [g.ident]
  have hH : p'.hdr.swap.image.length = 24 := FileHdr.image_length _ hidl
  have hA := hdrs_len p'.sh P
  have hB : (P.flatMap dimg).length = sumLen p'.data P :=
    flatMap_len P (fun k hk => w11 k ((hPhave k).mp hk))
  have hflen : f.length = 24 + 20 * P.length + sumLen p'.data P := by
    rw [w9]; simp only [List.length_append, hH, hA, hB]; omega
  have hcnt : P.length = p.count := by rw [← hP]; rfl
  have hcnt8 : P.length ≤ 8 := by
    rw [← hP]; exact List.length_filter_le p.have writeOrder
  -- the file header
  have hr1 : readHdr f = .ok p'.hdr := by
    have h1 : readAt f 0 24 = some p'.hdr.swap.image := by
      apply readAt_of_drop (rest := P.flatMap (fun k => (p'.sh k).swap.image) ++ P.flatMap dimg) _ hH
      rw [List.drop_zero]; exact w9
    simp only [readHdr, h1, fileHdrOf_image _ hidl, FileHdr.swap_swap]
    rw [if_neg]
    rw [w2]; simp [g.ident, g.version]
  -- section headers
  have hdrop : f.drop 24 = P.flatMap (fun k => (p'.sh k).swap.image) ++ P.flatMap dimg := by
    rw [w9, ← hH, List.drop_left]
  obtain ⟨sh, hs1, hs2⟩ := readHdrs_spec f p'.sh P 24 _ create.sh hdrop
    (fun k _ => destOf_typed (w6 k).1 (w6 k).2.1)
  have hsh1 : p'.hdr.shsize.toNat = 20 := by rw [w2]; simp [g.shsize]
  have hsh2 : p'.hdr.shnum.toNat = P.length := by
    rw [w2, hcnt]; simp; omega
  have hsh3 : p'.hdr.shoff.toNat = 24 := by rw [w2]; simp [g.shoff]
  -- sizes
  have hlen : ∀ k ∈ P, (p'.data k).length ≤ sumLen p'.data P := by
    intro k hk
    obtain ⟨a, b, hab⟩ := mem_split hk
    rw [hab, sumLen]; simp only [List.flatMap_append, List.flatMap_cons, List.length_append]; omega
  have hsmall : ∀ k, (p'.data k).length < 2 ^ 32 := by
    intro k
    by_cases hk : k ∈ P
    · have := hlen k hk; omega
    · have : k ≠ .strtab := by rintro rfl; exact hk ((hPhave _).mpr (by simp [Poff.have]))
      rw [w3 k this]; exact g.small k
  have hsize : ∀ k, (p'.sh k).size.toNat = (p'.data k).length := by
    intro k; rw [w7, toNat_small (hsmall k)]
  have hempty : ∀ k, k ∉ P → p'.data k = [] := by
    intro k hk
    have h0 : p'.have k = false := by
      rw [w8]; by_cases h : p.have k = true
      · exact absurd ((hPhave k).mpr h) hk
      · simpa using h
    simp only [Poff.have, Bool.or_eq_false_iff, bne_eq_false_iff_eq] at h0
    have := hsize k
    rw [h0.2] at this
    exact List.length_eq_zero_iff.mp (by simpa using this.symm)
  have hstr : Sec.strtab ∈ P := (hPhave _).mpr (by simp [Poff.have])
  have hrelsize : (sh .rel).size.toNat = (p'.sh .rel).size.toNat := by
    rw [hs2]
    split
    · rfl
    · next h => rw [hsize, hempty _ h]; rfl
  -- section data
  obtain ⟨q, hq1, hq2, hq3, hq4⟩ := readData_spec f dimg p'.data readOrder
    { create with hdr := p'.hdr, sh := sh } (by decide) (by
      intro k _ hz
      simp only at hz ⊢
      have hk : k ∈ P := by
        by_cases h : k ∈ P
        · exact h
        · rw [hs2, if_neg h] at hz
          exfalso; apply hz; cases k <;> rfl
      have hshk : sh k = p'.sh k := by rw [hs2, if_pos hk]
      have htw := w10 k ((hPhave k).mp hk) (hsmall _)
      constructor
      · obtain ⟨a, b, hab⟩ := mem_split hk
        have hoff := w12 a k b hab
        have ha : (a.flatMap dimg).length = sumLen p'.data a :=
          flatMap_len a (fun j hj => w11 j ((hPhave j).mp (by rw [hab]; simp [hj])))
        have hle : sumLen p'.data a + (p'.data k).length ≤ sumLen p'.data P := by
          rw [hab, sumLen, sumLen]
          simp only [List.flatMap_append, List.flatMap_cons, List.length_append]; omega
        rw [hshk, hoff, hsize, toNat_small (by omega)]
        apply readAt_of_drop (rest := b.flatMap dimg)
        · have := section_at (H := p'.hdr.swap.image)
            (A := P.flatMap (fun k => (p'.sh k).swap.image)) (D := dimg) hab
          rw [hH, hA, ha, ← w9] at this
          exact this
        · exact htw.1
      · intro fa da
        rw [hshk, hrelsize]
        exact (htw.2 fa da).2)
  have hrd : readFile f = .ok (.ok q) := by
    simp only [readFile, hr1, hsh1, hsh2, hsh3, hs1, hq1]
  have hdata : ∀ k, q.data k = p'.data k := by
    intro k
    rw [hq4 k]
    split
    · rfl
    · next h =>
      have hko : k ∈ readOrder := by cases k <;> simp [readOrder]
      have hz : (sh k).size = 0 := by
        by_cases h0 : (sh k).size = 0
        · exact h0
        · exact absurd ⟨hko, h0⟩ h
      by_cases hk : k ∈ P
      · rw [hs2, if_pos hk] at hz
        have := hsize k
        rw [hz] at this
        show ([] : List Byte) = _
        exact (List.length_eq_zero_iff.mp (by simpa using this.symm)).symm
      · show ([] : List Byte) = _
        exact (hempty k hk).symm
  refine ⟨q, hrd, ?_, hdata, ?_, ?_, ?_, ?_, ?_, ?_⟩
  · rw [hq2, w2]
  · intro k
    rw [hq3]
    show (sh k).entsize = _
    rw [hs2]
    split
    · exact (w6 k).2.2
    · rfl
  · intro k
    rw [hq3, hdata k]
    show (sh k).size = _
    rw [hs2]
    split
    · exact w7 k
    · next h => rw [hempty k h]; cases k <;> rfl
  · intro k; rw [hdata k]; exact hsmall k
  · rw [hq3]
    show (sh .strtab).size ≠ 0
    rw [hs2, if_pos hstr]
    intro h0
    have h1 := hsize .strtab
    rw [h0, w4] at h1
    exact w5.ne_nil (List.length_eq_zero_iff.mp (by simpa using h1.symm))
  · rw [hq3]
    show (sh .strtab).offset.toNat + (sh .strtab).size.toNat = _
    rw [hs2, if_pos hstr, hsize]
    have hlast : P = ([.text, .rodata, .symtab, .rel, .filetab, .lineno, .dbgfunc].filter p.have) ++ Sec.strtab :: [] := by
      rw [← hP]
      show (([.text, .rodata, .symtab, .rel, .filetab, .lineno, .dbgfunc] : List Sec) ++ [Sec.strtab]).filter p.have = _
      rw [List.filter_append]; simp [Poff.have]
    have hoff := w12 _ _ _ hlast
    have hsum : sumLen p'.data P = sumLen p'.data ([.text, .rodata, .symtab, .rel, .filetab, .lineno, .dbgfunc].filter p.have) + (p'.data .strtab).length := by
      conv => lhs; rw [hlast]
      simp only [sumLen, List.flatMap_append, List.flatMap_cons, List.flatMap_nil, List.length_append]
      simp
    rw [hoff, toNat_small (by omega)]
    omega
  · intro k
    rw [hq3]
    show (sh k).stype = _ ∧ (sh k).flags = _
    rw [hs2]
    split
    · exact ⟨(w6 k).1, (w6 k).2.1⟩
    · exact ⟨rfl, rfl⟩

end Pas.Poff
