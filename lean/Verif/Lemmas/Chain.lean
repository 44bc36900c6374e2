import Verif.Model.Chain
import Verif.Props.ObjectFile

/-! Lemmas about the files between the tools. -/
namespace Pas.Chain
open Pas.Poff Pas.Comp Pas.Spec Pas.Props

/-! ### Sizes -/

theorem opBytes_length (i : OpType) : (opBytes i).length ≤ 4 := by
  unfold opBytes
  split <;> split <;> simp

theorem addOpCode_length (out : List Byte) (i : OpType) : (addOpCode out i).1.length ≤ out.length + 4 := by
  have := opBytes_length i
  simp [addOpCode]; omega

theorem writeOp_spec (p : Pass1) (op : OpType) (off : Nat) (hr : p.inRel = []) (ho : p.outRel = []) :
    (writeOp p op off).out.length ≤ p.out.length + 4 ∧ (writeOp p op off).lines = p.lines ∧
      (writeOp p op off).inRel = [] ∧ (writeOp p op off).outRel = [] := by
  unfold writeOp
  rw [hr]
  exact ⟨addOpCode_length _ _, rfl, hr, ho⟩

theorem pass1_spec : ∀ (fuel : Nat) (r : Reader) (off : Nat) (p q : Pass1), p.inRel = [] → p.outRel = [] →
    pass1 fuel r off p = .ok q → q.out.length ≤ p.out.length + 4 * fuel ∧
      q.lines.length ≤ p.lines.length + fuel ∧ q.inRel = [] ∧ q.outRel = [] := by
  intro fuel
  induction fuel with
  | zero => intro r off p q _ _ h; cases h
  | succ fuel ih =>
    intro r off p q hr ho h
    rw [pass1] at h
    dsimp only at h
    generalize hp : (if (getOpCode r).1.op = Op.label.toByte then
        { p with labels := p.labels ++ [((getOpCode r).1.arg2.toNat, p.out.length)] }
      else if (getOpCode r).1.op = Op.line.toByte then
        { p with lines := p.lines ++ [⟨(getOpCode r).1.arg2, (getOpCode r).1.arg1, p.out.length⟩] }
      else writeOp p (getOpCode r).1 off) = p' at h
    have key : p'.out.length ≤ p.out.length + 4 ∧ p'.lines.length ≤ p.lines.length + 1 ∧ p'.inRel = [] ∧
        p'.outRel = [] := by
      subst hp
      split
      · exact ⟨by simp, by simp, hr, ho⟩
      · split
        · exact ⟨by simp, by simp, hr, ho⟩
        · have := writeOp_spec p (getOpCode r).1 off hr ho
          exact ⟨this.1, by rw [this.2.1]; omega, this.2.2.1, this.2.2.2⟩
    split at h
    · have := ih _ _ _ _ key.2.2.1 key.2.2.2 h
      exact ⟨by omega, by omega, this.2.2⟩
    · injection h with h; subst h
      exact ⟨by omega, by omega, key.2.2⟩

theorem findLabel_nil (x : Nat) : findLabel [] x = none := rfl

theorem pass3Op_new {labels : List (Nat × Nat)} {op op' : OpType} {pc : Nat} {new : List Reloc}
    (h : pass3Op labels [] op pc = some (op', new)) : new = [] := by
  unfold pass3Op at h
  simp only [findLabel_nil] at h
  split at h
  · split at h
    · injection h with h; injection h with _ h; exact h.symm
    · cases h
  · split at h
    · split at h
      · injection h with h; injection h with _ h; exact h.symm
      · cases h
    · injection h with h; injection h with _ h; exact h.symm
  · injection h with h; injection h with _ h; exact h.symm

theorem pass3_spec (labels : List (Nat × Nat)) : ∀ (fuel : Nat) (r : Reader) (pc : Nat) (out prog : List Byte)
    (rels : List Reloc), pass3 labels [] fuel r pc out [] = .ok (some (prog, rels)) →
    prog.length ≤ out.length + 4 * fuel ∧ rels = [] := by
  intro fuel
  induction fuel with
  | zero => intro r pc out prog rels h; cases h
  | succ fuel ih =>
    intro r pc out prog rels h
    rw [pass3] at h
    dsimp only at h
    split at h
    · cases h
    · next op' new hop =>
      have := pass3Op_new hop
      subst this
      have hl := addOpCode_length out op'
      rw [List.append_nil] at h
      split at h
      · have := ih _ _ _ _ _ h
        exact ⟨by omega, this.2⟩
      · injection h with h; injection h with h; injection h with h1 h2
        subst h1 h2
        exact ⟨by omega, rfl⟩

/-- Finalization of an object without symbols. -/
theorem finalize_spec {prog : List Byte} {e : Nat} {f : ObjFile}
    (h : finalize ⟨prog, [], [], [], some e⟩ = .ok (some f)) :
    f.syms = [] ∧ f.rels = [] ∧ f.lines.length ≤ prog.length + 1 ∧ f.prog.length ≤ 16 * prog.length + 20 ∧
      ∃ v, f.entry = some v := by
  unfold finalize at h
  rw [Res.bind_eq_ok] at h
  obtain ⟨p, h1, h⟩ := h
  obtain ⟨p1, p2, p3, p4⟩ := pass1_spec _ _ _ _ _ rfl rfl h1
  simp only [pass2] at h
  rw [Res.bind_eq_ok] at h
  obtain ⟨r, h2, h⟩ := h
  rw [p4] at h2
  match r with
  | none => cases h
  | some (pr, rels) =>
    obtain ⟨q1, q2⟩ := pass3_spec _ _ _ _ _ _ _ h2
    simp only at h
    split at h
    · cases h
    · injection h with h; injection h with h; subst h
      simp at p1 p2 q1
      exact ⟨rfl, q2, p2, by simp only; omega, _, rfl⟩

theorem mergeLoop_length (pcOffset roOffset : Nat) : ∀ (fuel : Nat) (r : Reader) (out : List Byte) (pc : Nat)
    (x : List Byte × Nat), mergeLoop pcOffset roOffset fuel r out pc = .ok x →
    x.1.length ≤ out.length + 4 * fuel := by
  intro fuel
  induction fuel with
  | zero => intro r out pc x h; cases h
  | succ fuel ih =>
    intro r out pc x h
    rw [mergeLoop] at h
    dsimp only at h
    have hl := addOpCode_length out (relocate (getOpCode r).1 pcOffset roOffset).1
    split at h
    · have := ih _ _ _ _ h; omega
    · injection h with h; subst h; simp only; omega

/-! ### Objects -/

theorem encStrs_mem {x : List Byte} {l : List (List Byte)} (hx : x ∈ l) : x.length ≤ (encStrs l).length := by
  induction l with
  | nil => cases hx
  | cons y l ih =>
    simp only [encStrs, List.flatMap_cons, List.length_append] at ih ⊢
    rcases List.mem_cons.1 hx with rfl | hx
    · simp; omega
    · have := ih hx; omega

theorem addLines_spec : ∀ (ls : List LineNo) (p : Poff),
    (addLines p ls).hdr = p.hdr ∧
    (∀ k, (addLines p ls).data k = if k = .lineno then p.data .lineno ++
      (ls.map fun l => (l.line, l.file.zeroExtend 16, BitVec.ofNat 32 l.offset)).flatMap lineImg
      else p.data k) ∧
    ((∀ k, ((p.sh k).stype = (freshSh k).stype ∧ (p.sh k).flags = (freshSh k).flags ∧
      (p.sh k).entsize = (freshSh k).entsize)) →
      ∀ k, (((addLines p ls).sh k).stype = (freshSh k).stype ∧
        ((addLines p ls).sh k).flags = (freshSh k).flags ∧
        ((addLines p ls).sh k).entsize = (freshSh k).entsize)) ∧
    ((∀ k, (p.sh k).size = BitVec.ofNat 32 (p.data k).length) →
      ∀ k, ((addLines p ls).sh k).size = BitVec.ofNat 32 ((addLines p ls).data k).length) := by
  intro ls
  induction ls with
  | nil =>
    intro p
    refine ⟨rfl, fun k => ?_, fun h => h, fun h => h⟩
    simp only [addLines, List.map_nil, List.flatMap_nil, List.append_nil]
    split
    · next h => rw [h]
    · rfl
  | cons l ls ih =>
    intro p
    obtain ⟨h1, h2, h3, h4⟩ := ih (p.addLine l.line (l.file.zeroExtend 16) (BitVec.ofNat 32 l.offset)).2
    rw [addLines]
    refine ⟨h1, fun k => ?_, fun h => h3 (put_typed h _ _), fun h => h4 (put_sizes h _ _)⟩
    rw [h2]
    simp only [Poff.addLine, app_data, if_true, List.map_cons, List.flatMap_cons, lineImg]
    split
    · simp
    · rfl

/-- An object as it is read: see `Inv`, without the debug records and without the allocation of their
table. -/
structure Back (q : Poff) (c : Contents) (l : List (List Byte)) (n : Nat) : Prop where
  ident : q.hdr.ident = [0x50, 0x4F, 0x46, 0x46]
  version : q.hdr.version = 1
  shsize : q.hdr.shsize = 20
  shoff : q.hdr.shoff = 24
  ftype : q.hdr.ftype = c.ftype
  arch : q.hdr.arch = c.arch
  entry : q.hdr.entry = c.entry
  name : q.hdr.name = BitVec.ofNat 32 (offOf l c.name)
  nameIn : c.name ∈ l
  typed : ∀ k, (q.sh k).stype = (freshSh k).stype ∧ (q.sh k).flags = (freshSh k).flags ∧
    (q.sh k).entsize = (freshSh k).entsize
  sizes : ∀ k, (q.sh k).size = BitVec.ofNat 32 (q.data k).length
  small : ∀ k, (q.data k).length < 2 ^ 32
  strs : Table (q.data .strtab) l
  text : q.data .text = c.program
  rodata : q.data .rodata = c.rodata
  symtab : q.data .symtab = c.symbols.flatMap (symImg l)
  symIn : ∀ s ∈ c.symbols, textOf s.name ∈ l
  rel : q.data .rel = c.relocs.flatMap relImg
  relSmall : ∀ r ∈ c.relocs, r.2.1.toNat < 2 ^ 24
  filetab : q.data .filetab = c.files.flatMap (fileImg l)
  fileIn : ∀ s ∈ c.files, s ∈ l
  lineno : q.data .lineno = c.lines.flatMap lineImg
  size : total q ≤ n

/-- Writing an object and reading the file. -/
theorem back_of_inv {p : Poff} {c l n} (h : Inv p c l n) (hn : n + 253 < 2 ^ 32) (hf : c.files.length ≤ 1)
    (hd : c.debug = [] ∨ c.relocs.length ≤ 1) :
    ∃ f q m, fileOf p = .ok f ∧ readFile f = .ok (.ok q) ∧ Back q c (l ++ m) (n + 69) ∧ Holds q c := by
  have g := good_of_inv h (by omega) hf hd
  obtain ⟨f, p', _, _, w1, _, _, _, _, _, _, _, _, _, _, w13, _⟩ := write_spec g
  have hlen : f.length < 2 ^ 32 := by
    have := file_length g w1
    have := h.size
    omega
  obtain ⟨r1, ⟨m, r2, r3⟩, q, r4, r5, r6, r7, r8, r9, _, _, r10⟩ := roundtrip g w1 hlen
  have hd : ∀ k, k ≠ Sec.strtab → q.data k = p.data k := fun k hk => by rw [r6, r1 k hk]
  refine ⟨f, q, m, ?_, r4, ?_, ?_⟩
  · simp only [fileOf, w1, Res.ok_bind]
  · exact {
      ident := by rw [r5]; exact h.ident
      version := by rw [r5]; exact h.version
      shsize := by rw [r5]; exact h.shsize
      shoff := by rw [r5]; exact h.shoff
      ftype := by rw [r5]; exact h.ftype
      arch := by rw [r5]; exact h.arch
      entry := by rw [r5]; exact h.entry
      name := by rw [r5, offOf_append h.nameIn]; exact h.name
      nameIn := List.mem_append_left _ h.nameIn
      typed := fun k => ⟨(r10 k).1, (r10 k).2, r7 k⟩
      sizes := r8
      small := r9
      strs := by rw [r6, r2]; exact r3
      text := by rw [hd _ (by decide)]; exact h.text
      rodata := by rw [hd _ (by decide)]; exact h.rodata
      symtab := by
        rw [hd _ (by decide), h.symtab]
        exact flatMap_congr' _ (fun s hs => by simp only [symImg, offOf_append (h.symIn s hs)])
      symIn := fun s hs => List.mem_append_left _ (h.symIn s hs)
      rel := by rw [hd _ (by decide)]; exact h.rel
      relSmall := h.relSmall
      filetab := by
        rw [hd _ (by decide), h.filetab]
        exact flatMap_congr' _ (fun s hs => by simp only [fileImg, offOf_append (h.fileIn s hs)])
      fileIn := fun s hs => List.mem_append_left _ (h.fileIn s hs)
      lineno := by rw [hd _ (by decide)]; exact h.lineno
      size := by
        have h0 := h.size
        have e1 := hd .text (by decide); have e2 := hd .rodata (by decide)
        have e3 := hd .symtab (by decide); have e4 := hd .rel (by decide)
        have e5 := hd .filetab (by decide); have e6 := hd .lineno (by decide)
        have e7 := hd .dbgfunc (by decide); have e8 := r6 .strtab
        unfold total at h0 ⊢
        rw [e1, e2, e3, e4, e5, e6, e7, e8]; omega }
  · exact (holds_of h hd (by rw [r6, r2]; exact r3) r7 r8 r9
      (by rw [r5]; exact ⟨rfl, rfl, rfl, rfl⟩)).1

/-- Finalizing an object without symbols, relocations and line numbers. -/
theorem popt_back {q : Poff} {c l n} (h : Back q c l n) (hs : c.symbols = []) (hr : c.relocs = [])
    (hl : c.lines = []) (ht : c.ftype = 3#8) {f : ObjFile}
    (hfin : finalize ⟨c.program, [], [], [], some c.entry.toNat⟩ = .ok (some f)) :
    ∃ q', poptObject q = .ok (some q') ∧
      Inv q' { c with program := f.prog, debug := [], entry := BitVec.ofNat 32 (f.entry.getD 0),
                      lines := f.lines.map fun l => (l.line, l.file.zeroExtend 16, BitVec.ofNat 32 l.offset) }
        l (n + f.prog.length + 8 * f.lines.length) := by
  obtain ⟨f1, f2, f3, f4, v, f5⟩ := finalize_spec hfin
  have e1 : q.data .rel = [] := by rw [h.rel, hr]; rfl
  have e2 : q.data .lineno = [] := by rw [h.lineno, hl]; rfl
  have e3 : q.data .symtab = [] := by rw [h.symtab, hs]; rfl
  have e4 : q.symbols = .ok [] := by
    have : (q.sh .symtab).size = 0#32 := by rw [h.sizes, e3]; rfl
    simp [Poff.symbols, e3, symLoop, this]
  have e5 : q.program = c.program := by
    rw [Poff.program, h.sizes, toNat_small (h.small _), List.take_length]; exact h.text
  obtain ⟨a1, a2, a3, a4⟩ := addLines_spec f.lines q
  have a3 := a3 h.typed
  have a4 := a4 h.sizes
  refine ⟨(((discardDebug (addLines q f.lines)).put .text f.prog).setEntry (BitVec.ofNat 32 v)).put .rel
    (f.rels.flatMap relBytes), ?_, ?_⟩
  · rw [poptObject, if_neg (by simp [e1, e2]), e4]
    simp only [Res.ok_bind, List.map_nil, e5, h.ftype, ht, if_true, h.entry, hfin, f1, tmpSyms, List.any_nil,
      Bool.false_eq_true, if_false, f5]
  · generalize addLines q f.lines = w at a1 a2 a3 a4
    have d : ∀ k, ((((discardDebug w).put .text f.prog).setEntry (BitVec.ofNat 32 v)).put .rel
        (f.rels.flatMap relBytes)).data k = if k = .rel then [] else if k = .text then f.prog else
          if k = .dbgfunc then [] else w.data k := by
      intro k
      simp only [put_data, f2, List.flatMap_nil, Poff.setEntry, discardDebug]
    exact {
      ident := by show w.hdr.ident = _; rw [a1]; exact h.ident
      version := by show w.hdr.version = _; rw [a1]; exact h.version
      shsize := by show w.hdr.shsize = _; rw [a1]; exact h.shsize
      shoff := by show w.hdr.shoff = _; rw [a1]; exact h.shoff
      ftype := by show w.hdr.ftype = _; rw [a1]; exact h.ftype
      arch := by show w.hdr.arch = _; rw [a1]; exact h.arch
      entry := by simp only [f5]; rfl
      name := by show w.hdr.name = _; rw [a1]; exact h.name
      nameIn := h.nameIn
      typed := put_typed (p := ((discardDebug w).put .text f.prog).setEntry (BitVec.ofNat 32 v))
        (put_typed (p := discardDebug w) (put_typed a3 _ _) _ _) _ _
      sizes := put_sizes (p := ((discardDebug w).put .text f.prog).setEntry (BitVec.ofNat 32 v))
        (put_sizes (p := discardDebug w) (put_sizes a4 _ _) _ _) _ _
      strs := Or.inr (by rw [d]; simp only [reduceCtorEq, if_false, a2]; exact h.strs)
      text := by rw [d]; rfl
      rodata := by rw [d]; simp only [reduceCtorEq, if_false, a2]; exact h.rodata
      symtab := by rw [d]; simp only [reduceCtorEq, if_false, a2]; exact h.symtab
      symIn := h.symIn
      rel := by rw [d, hr]; rfl
      relSmall := h.relSmall
      filetab := by rw [d]; simp only [reduceCtorEq, if_false, a2]; exact h.filetab
      fileIn := h.fileIn
      lineno := by rw [d]; simp only [reduceCtorEq, if_false, if_true, a2, e2, List.nil_append]
      dbgfunc := by rw [d]; rfl
      dbgRoom := by rw [d]; simp
      dbgSmall := by simp
      size := by
        have h0 := h.size
        unfold total at h0 ⊢
        have hlen := len_flatMap lineImg 8
          (f.lines.map fun l => (l.line, l.file.zeroExtend 16, BitVec.ofNat 32 l.offset))
          (fun r _ => by simp [lineImg])
        rw [List.length_map] at hlen
        simp only [d, reduceCtorEq, if_false, if_true, a2, e2, List.nil_append, List.length_nil, hlen]
        omega }

theorem inputOf_holds {q : Poff} {c : Contents} (h : Holds q c) (hs : c.symbols = []) (hr : c.relocs = []) :
    inputOf q = .ok ⟨c.ftype, c.name, c.entry, c.rodata, c.program, c.files, c.lines, [], []⟩ := by
  obtain ⟨h1, h2, h3, ⟨rs, h4, h5⟩, h6, h7, h8, h9, h10, h11⟩ := h
  rw [hr, List.map_eq_nil_iff] at h5
  subst h5
  rw [hs] at h3
  simp only [inputOf, h9, h6, h7, h3, h4, Res.ok_bind, h8, h11, h2, h1, List.map_nil]

/-- Linking one program without symbols. -/
theorem link_single {i : Link.Input} {o : Link.Output} (hs : i.syms = []) (hr : i.rels = [])
    (h : Link.link [i] = .ok (some o)) :
    o.rodata = i.rodata ∧ o.files = i.files ∧ o.lines.length = i.lines.length ∧ o.name = i.name ∧ o.syms = [] ∧
      o.prog.length ≤ 4 * (i.prog.length + 1) := by
  simp only [Link.link, List.length_singleton, Nat.reduceGT, if_false, Link.loadFiles] at h
  rw [Res.bind_eq_ok] at h
  obtain ⟨st, h1, h2⟩ := h
  rw [Res.bind_eq_ok] at h1
  obtain ⟨st', h3, h4⟩ := h1
  match st' with
  | none => cases h4; cases h2
  | some st' =>
    simp only at h4
    injection h4 with h4
    subst h4
    simp only at h2
    unfold Link.loadFile Link.checkHeader at h3
    by_cases ht : i.ftype = 3#8
    · simp only [ht, if_true, Link.State.init, Bool.false_eq_true, if_false] at h3
      rw [Res.bind_eq_ok] at h3
      obtain ⟨⟨pr, pe⟩, m1, h3⟩ := h3
      have hlen := mergeLoop_length _ _ _ _ _ _ _ m1
      simp only at h3
      rw [Res.bind_eq_ok] at h3
      obtain ⟨⟨fs, fe⟩, m2, h3⟩ := h3
      simp only [hs, hr, Link.mergeSymbols, Link.mergeSymLoop, Res.ok_bind] at h3
      injection h3 with h3; injection h3 with h3
      subst h3
      unfold Link.mergeFiles at m2
      split at m2
      · cases m2
      injection m2 with m2; injection m2 with m2 _
      simp [Link.verifySymbols, Link.SymTab.empty, Link.applyAll] at h2
      subst h2
      simp at hlen
      exact ⟨by simp, by simp [← m2], by simp, rfl, rfl, by simp; omega⟩
    · by_cases ht' : i.ftype = 4#8
      · simp only [ht', if_false, ne_eq, not_true_eq_false, Link.State.init] at h3
        exfalso
        rw [if_neg (by decide)] at h3
        dsimp only at h3
        rw [Res.bind_eq_ok] at h3
        obtain ⟨⟨_, _⟩, _, h3⟩ := h3
        dsimp only at h3
        rw [Res.bind_eq_ok] at h3
        obtain ⟨⟨_, _⟩, _, h3⟩ := h3
        dsimp only at h3
        rw [Res.bind_eq_ok] at h3
        obtain ⟨⟨_, _⟩, _, h3⟩ := h3
        injection h3 with h3; injection h3 with h3
        subst h3
        simp at h2
      · simp [ht, ht'] at h3

theorem addRawLines_inv : ∀ (ls : List (Word × Word × U32)) {p : Poff} {c l n}, Inv p c l n →
    Inv (addRawLines p ls) { c with lines := c.lines ++ ls } l (n + 8 * ls.length) := by
  intro ls
  induction ls with
  | nil => intro p c l n h; simpa [addRawLines] using h
  | cons x ls ih =>
    intro p c l n h
    have := inv_app h .lineno (by decide) (lineImg x) { c with lines := c.lines ++ [x] } ⟨rfl, rfl, rfl, rfl⟩
      (by simp) (by simp) (by simp) h.symIn (by simp) h.relSmall (by simp) h.fileIn (by simp) rfl (by decide)
    have hx : (lineImg x).length = 8 := by simp [lineImg]
    rw [hx] at this
    have := ih this
    rw [List.append_assoc] at this
    have e : n + 8 + 8 * ls.length = n + 8 * (x :: ls).length := by simp; omega
    rw [e] at this
    exact this

/-- The object `plink` writes. -/
theorem outObject_inv (o : Link.Output) (hname : IsCStr o.name) {fn : List Byte} (hfile : o.files = [fn])
    (hfn : IsCStr fn) (hsym : o.syms = []) :
    ∃ p l, outObject o = .ok p ∧
      Inv p ⟨o.prog, o.rodata, [], [], [fn], o.lines, [], 1, o.name, 0, o.entry⟩ l
        (o.prog.length + o.rodata.length + o.name.length + fn.length + 8 * o.lines.length + 8) := by
  obtain ⟨p1, l1, h1, i1⟩ := inv_run inv_create (.entry o.entry) trivial
  obtain ⟨p2, l2, h2, i2⟩ := inv_run i1 (.ftype 1 o.name) hname
  have i3 := inv_app i2 .rodata (by decide) o.rodata
    ⟨[], o.rodata, [], [], [], [], [], 1, o.name, 0, o.entry⟩ ⟨rfl, rfl, rfl, rfl⟩ rfl (by simp [Contents.add])
    rfl (by simp) rfl (by simp) rfl (by simp) rfl rfl (by decide)
  have i4 := inv_app i3 .text (by decide) o.prog
    ⟨o.prog, o.rodata, [], [], [], [], [], 1, o.name, 0, o.entry⟩ ⟨rfl, rfl, rfl, rfl⟩ (by simp) (by simp)
    rfl (by simp) rfl (by simp) rfl (by simp) rfl rfl (by decide)
  obtain ⟨p5, l5, h5, i5⟩ := inv_run i4 (.file fn) hfn
  have i6 := addRawLines_inv o.lines i5
  refine ⟨_, l5, ?_, { i6 with size := Nat.le_trans i6.size ?_ }⟩
  · simp only [ObjOp.run] at h1 h2 h5
    injection h1 with h1
    subst h1
    rw [Res.bind_eq_ok] at h5
    obtain ⟨r, h5, h6⟩ := h5
    injection h6 with h6
    have h2' : (create.setEntry o.entry).setType 1#8 (some o.name) = .ok p2 := h2
    simp only [outObject, h2', Res.ok_bind, hfile, addFiles, h5, h6, hsym, addSyms]
  · simp only [ObjOp.cost]; omega

end Pas.Chain
