import Verif.Lemmas.PoffRound
import Verif.Props.DebugInfo
import Verif.Spec.ObjectFile
/-! Objects built by histories of calls. -/
namespace Pas.Poff
open Pas.Spec Pas.Props

/-- Bytes held by an object. -/
def total (p : Poff) : Nat :=
  (p.data .text).length + (p.data .rodata).length + (p.data .symtab).length +
  (p.data .strtab).length + (p.data .rel).length + (p.data .filetab).length +
  (p.data .lineno).length + (p.data .dbgfunc).length

/-- Image of a relocation. -/
def relImg (r : Byte × U32 × U32) : List Byte := le32 (r.2.1 <<< 8 ||| r.1.setWidth 32) ++ le32 r.2.2
/-- Image of a line number. -/
def lineImg (r : Word × Word × U32) : List Byte := le16 r.1 ++ (le16 r.2.1 ++ le32 r.2.2)
/-- Image of a symbol. -/
def symImg (l : List (List Byte)) (s : LibSymbol) : List Byte :=
  symImage s (BitVec.ofNat 32 (offOf l (textOf s.name)))
/-- Image of a file name. -/
def fileImg (l : List (List Byte)) (s : List Byte) : List Byte := le32 (BitVec.ofNat 32 (offOf l s))

/-- The object represents the contents, all its strings being in `l`, in at most `n` bytes. -/
structure Inv (p : Poff) (c : Contents) (l : List (List Byte)) (n : Nat) : Prop where
  ident : p.hdr.ident = [0x50, 0x4F, 0x46, 0x46]
  version : p.hdr.version = 1
  shsize : p.hdr.shsize = 20
  shoff : p.hdr.shoff = 24
  ftype : p.hdr.ftype = c.ftype
  arch : p.hdr.arch = c.arch
  entry : p.hdr.entry = c.entry
  name : p.hdr.name = BitVec.ofNat 32 (offOf l c.name)
  nameIn : c.name ∈ l
  typed : ∀ k, (p.sh k).stype = (freshSh k).stype ∧ (p.sh k).flags = (freshSh k).flags ∧
    (p.sh k).entsize = (freshSh k).entsize
  sizes : ∀ k, (p.sh k).size = BitVec.ofNat 32 (p.data k).length
  strs : StrOK p l
  text : p.data .text = c.program
  rodata : p.data .rodata = c.rodata
  symtab : p.data .symtab = c.symbols.flatMap (symImg l)
  symIn : ∀ s ∈ c.symbols, textOf s.name ∈ l
  rel : p.data .rel = c.relocs.flatMap relImg
  relSmall : ∀ r ∈ c.relocs, r.2.1.toNat < 2 ^ 24
  filetab : p.data .filetab = c.files.flatMap (fileImg l)
  fileIn : ∀ s ∈ c.files, s ∈ l
  lineno : p.data .lineno = c.lines.flatMap lineImg
  dbgfunc : p.data .dbgfunc = imagesOf c.debug
  dbgRoom : (p.data .dbgfunc).length ≤ p.debugAlloc
  dbgSmall : ∀ r ∈ c.debug, r.args.length ≤ 189
  size : total p ≤ n

theorem inv_create : Inv create {} [[]] 0 where
  ident := rfl
  version := rfl
  shsize := rfl
  shoff := rfl
  ftype := rfl
  arch := rfl
  entry := rfl
  name := by simp [create, offOf, encStrs]
  nameIn := by simp
  typed := fun _ => ⟨rfl, rfl, rfl⟩
  sizes := by intro k; cases k <;> rfl
  strs := Or.inl ⟨rfl, rfl⟩
  text := rfl
  rodata := rfl
  symtab := rfl
  symIn := by simp
  rel := rfl
  relSmall := by simp
  filetab := rfl
  fileIn := by simp
  lineno := rfl
  dbgfunc := rfl
  dbgRoom := by simp [create]
  dbgSmall := by simp
  size := by simp [total, create]

theorem flatMap_congr' {α β : Type} {f g : α → List β} (l : List α) (h : ∀ x ∈ l, f x = g x) :
    l.flatMap f = l.flatMap g := by
  induction l with
  | nil => rfl
  | cons a l ih =>
    rw [List.flatMap_cons, List.flatMap_cons, h a (by simp), ih (fun x hx => h x (by simp [hx]))]

theorem put_typed {p : Poff} (h : ∀ k, (p.sh k).stype = (freshSh k).stype ∧ (p.sh k).flags = (freshSh k).flags ∧
    (p.sh k).entsize = (freshSh k).entsize) (k : Sec) (d : List Byte) :
    ∀ j, ((p.put k d).sh j).stype = (freshSh j).stype ∧ ((p.put k d).sh j).flags = (freshSh j).flags ∧
    ((p.put k d).sh j).entsize = (freshSh j).entsize := by
  intro j
  by_cases hj : j = k
  · subst hj; simp only [Poff.put, upd, if_true]; exact h j
  · simp only [Poff.put, upd, if_neg hj]; exact h j

theorem put_sizes {p : Poff} (h : ∀ k, (p.sh k).size = BitVec.ofNat 32 (p.data k).length) (k : Sec) (d : List Byte) :
    ∀ j, ((p.put k d).sh j).size = BitVec.ofNat 32 ((p.put k d).data j).length := by
  intro j
  by_cases hj : j = k
  · subst hj; simp only [Poff.put, upd, if_true]
  · simp only [Poff.put, upd, if_neg hj]; exact h j

/-- Adding a string to an object keeps what it represents. -/
theorem inv_addStr {p c l n} (h : Inv p c l n) (s : Option (List Byte)) (hs : IsCStr (textOf s)) :
    ∃ m q, p.addStr s = .ok (offOf (l ++ m) (textOf s), q) ∧ textOf s ∈ l ++ m ∧
      Inv q c (l ++ m) (n + (textOf s).length + 2) ∧ q.fileAlloc = p.fileAlloc := by
  obtain ⟨m, h1, h2, h3⟩ := addStr_spec h.strs s (by
    intro x hx; subst hx; exact hs)
  refine ⟨m, _, h3, h2, ?_, rfl⟩
  have hlen := addStr_len h3
  have hd : ∀ k, k ≠ Sec.strtab → (p.put .strtab (encStrs (l ++ m))).data k = p.data k := by
    intro k hk; rw [put_data, if_neg hk]
  exact {
    ident := h.ident
    version := h.version
    shsize := h.shsize
    shoff := h.shoff
    ftype := h.ftype
    arch := h.arch
    entry := h.entry
    name := by rw [offOf_append h.nameIn]; exact h.name
    nameIn := List.mem_append_left _ h.nameIn
    typed := put_typed h.typed _ _
    sizes := put_sizes h.sizes _ _
    strs := Or.inr (by rw [put_data, if_pos rfl]; exact h1)
    text := by rw [hd _ (by decide)]; exact h.text
    rodata := by rw [hd _ (by decide)]; exact h.rodata
    symtab := by
      rw [hd _ (by decide), h.symtab]
      exact flatMap_congr' _ (fun s hs => by simp only [symImg, offOf_append (h.symIn s hs)])
    symIn := fun s hs => List.mem_append_left _ (h.symIn s hs)
    rel := by rw [hd _ (by decide)]; exact h.rel
    relSmall := h.relSmall
    filetab := by
      rw [hd _ (by decide), h.filetab]
      exact flatMap_congr' _ (fun s hs => by simp only [fileImg, offOf_append (h.fileIn s hs)])
    fileIn := fun s hs => List.mem_append_left _ (h.fileIn s hs)
    lineno := by rw [hd _ (by decide)]; exact h.lineno
    dbgfunc := by rw [hd _ (by decide)]; exact h.dbgfunc
    dbgRoom := by rw [hd _ (by decide)]; exact h.dbgRoom
    dbgSmall := h.dbgSmall
    size := by
      have h0 := h.size
      have e1 := hd .text (by decide); have e2 := hd .rodata (by decide)
      have e3 := hd .symtab (by decide); have e4 := hd .rel (by decide)
      have e5 := hd .filetab (by decide); have e6 := hd .lineno (by decide)
      have e7 := hd .dbgfunc (by decide)
      unfold total at h0 ⊢
      rw [e1, e2, e3, e4, e5, e6, e7]; omega }

theorem app_strOK {p : Poff} {l} (h : StrOK p l) (k : Sec) (hk : k ≠ .strtab) (d) : StrOK (p.app k d) l := by
  unfold StrOK at *
  simp only [Poff.app, put_data, if_neg (Ne.symm hk)]
  exact h

theorem app_data (p : Poff) (k j : Sec) (d : List Byte) :
    (p.app k d).data j = if j = k then p.data k ++ d else p.data j := rfl

theorem flatMap_snoc {α β : Type} (f : α → List β) (l : List α) (a : α) :
    (l ++ [a]).flatMap f = l.flatMap f ++ f a := by simp

theorem inv_app {p c l n} (h : Inv p c l n) (k : Sec) (hk : k ≠ .strtab) (d : List Byte) (c' : Contents)
    (hf : c'.ftype = c.ftype ∧ c'.arch = c.arch ∧ c'.entry = c.entry ∧ c'.name = c.name)
    (ht : c'.program = c.program ++ if k = .text then d else [])
    (hr : c'.rodata = c.rodata ++ if k = .rodata then d else [])
    (hs : c'.symbols.flatMap (symImg l) = c.symbols.flatMap (symImg l) ++ if k = .symtab then d else [])
    (hs' : ∀ s ∈ c'.symbols, textOf s.name ∈ l)
    (hre : c'.relocs.flatMap relImg = c.relocs.flatMap relImg ++ if k = .rel then d else [])
    (hre' : ∀ r ∈ c'.relocs, r.2.1.toNat < 2 ^ 24)
    (hfi : c'.files.flatMap (fileImg l) = c.files.flatMap (fileImg l) ++ if k = .filetab then d else [])
    (hfi' : ∀ s ∈ c'.files, s ∈ l)
    (hl : c'.lines.flatMap lineImg = c.lines.flatMap lineImg ++ if k = .lineno then d else [])
    (hd : c'.debug = c.debug) (hkd : k ≠ .dbgfunc) :
    Inv (p.app k d) c' l (n + d.length) := by
  obtain ⟨hf1, hf2, hf3, hf4⟩ := hf
  exact {
    ident := h.ident
    version := h.version
    shsize := h.shsize
    shoff := h.shoff
    ftype := by rw [hf1]; exact h.ftype
    arch := by rw [hf2]; exact h.arch
    entry := by rw [hf3]; exact h.entry
    name := by rw [hf4]; exact h.name
    nameIn := by rw [hf4]; exact h.nameIn
    typed := put_typed h.typed _ _
    sizes := put_sizes h.sizes _ _
    strs := app_strOK h.strs k hk d
    text := by rw [ht, app_data, ← h.text]; cases k <;> simp
    rodata := by rw [hr, app_data, ← h.rodata]; cases k <;> simp
    symtab := by rw [hs, app_data, ← h.symtab]; cases k <;> simp
    symIn := hs'
    rel := by rw [hre, app_data, ← h.rel]; cases k <;> simp
    relSmall := hre'
    filetab := by rw [hfi, app_data, ← h.filetab]; cases k <;> simp
    fileIn := hfi'
    lineno := by rw [hl, app_data, ← h.lineno]; cases k <;> simp
    dbgfunc := by rw [app_data, if_neg (Ne.symm hkd), hd]; exact h.dbgfunc
    dbgRoom := by rw [app_data, if_neg (Ne.symm hkd)]; exact h.dbgRoom
    dbgSmall := by rw [hd]; exact h.dbgSmall
    size := by
      have h0 := h.size
      unfold total at h0 ⊢
      simp only [app_data]
      cases k <;> simp <;> omega }

theorem symImage_length (s v) : (symImage s v).length = 16 := by simp [symImage]

/-- One call. -/
theorem inv_run {p c l n} (h : Inv p c l n) (o : ObjOp) (ho : o.WF) :
    ∃ q l', o.run p = .ok q ∧ Inv q (c.add o) l' (n + o.cost) := by
  cases o with
  | prog b =>
    refine ⟨_, l, rfl, ?_⟩
    exact inv_app h .text (by decide) [b] _ ⟨rfl, rfl, rfl, rfl⟩ (by simp [Contents.add]) (by simp [Contents.add])
      (by simp [Contents.add]) h.symIn (by simp [Contents.add]) h.relSmall (by simp [Contents.add]) h.fileIn
      (by simp [Contents.add]) rfl (by decide)
  | ro s pad =>
    refine ⟨_, l, rfl, ?_⟩
    have h1 := inv_app h .rodata (by decide) (s ++ [0#8] ++ if (s.length + 1) % 2 = 0 then [] else [pad])
      (c.add (.ro s pad)) ⟨rfl, rfl, rfl, rfl⟩ (by simp [Contents.add]) (by
        have : ((s.length + 1) % 2 = 0) = (s.length % 2 = 1) := by
          apply propext; constructor <;> intro <;> omega
        simp [Contents.add, this])
      (by simp [Contents.add]) h.symIn (by simp [Contents.add]) h.relSmall (by simp [Contents.add]) h.fileIn
      (by simp [Contents.add]) rfl (by decide)
    refine { h1 with size := Nat.le_trans h1.size ?_ }
    simp only [ObjOp.cost, List.length_append, List.length_cons, List.length_nil]
    split <;> simp <;> omega
  | sym s =>
    obtain ⟨m, q, h1, h2, h3, _⟩ := inv_addStr h s.name ho
    refine ⟨q.app .symtab (symImg (l ++ m) s), l ++ m, ?_, ?_⟩
    · simp only [ObjOp.run, Poff.addSym, h1, Res.ok_bind]; rfl
    · have := inv_app h3 .symtab (by decide) (symImg (l ++ m) s) (c.add (.sym s)) ⟨rfl, rfl, rfl, rfl⟩
        (by simp [Contents.add]) (by simp [Contents.add]) (by simp [Contents.add])
        (by intro t ht
            simp only [Contents.add, List.mem_append, List.mem_singleton] at ht
            rcases ht with ht | rfl
            · exact h3.symIn t ht
            · exact h2)
        (by simp [Contents.add]) h.relSmall (by simp [Contents.add]) h3.fileIn (by simp [Contents.add]) rfl (by decide)
      refine { this with size := Nat.le_trans this.size ?_ }
      simp only [ObjOp.cost, symImg, symImage_length]; omega
  | reloc t s o =>
    refine ⟨_, l, rfl, ?_⟩
    have := inv_app h .rel (by decide) (relImg (t, s, o)) (c.add (.reloc t s o)) ⟨rfl, rfl, rfl, rfl⟩
      (by simp [Contents.add]) (by simp [Contents.add]) (by simp [Contents.add]) h.symIn (by simp [Contents.add])
      (by intro r hr
          simp only [Contents.add, List.mem_append, List.mem_singleton] at hr
          rcases hr with hr | rfl
          · exact h.relSmall r hr
          · exact ho) (by simp [Contents.add]) h.fileIn (by simp [Contents.add]) rfl (by decide)
    refine { this with size := Nat.le_trans this.size ?_ }
    simp [ObjOp.cost, relImg]
  | file nm =>
    obtain ⟨m, q, h1, h2, h3, h4⟩ := inv_addStr h (some nm) ho
    have := inv_app h3 .filetab (by decide) (fileImg (l ++ m) nm) (c.add (.file nm)) ⟨rfl, rfl, rfl, rfl⟩
        (by simp [Contents.add]) (by simp [Contents.add]) (by simp [Contents.add]) h3.symIn (by simp [Contents.add])
        h.relSmall (by simp [Contents.add])
        (by intro t ht
            simp only [Contents.add, List.mem_append, List.mem_singleton] at ht
            rcases ht with ht | rfl
            · exact h3.fileIn t ht
            · exact h2) (by simp [Contents.add]) rfl (by decide)
    have h5 : total (q.app .filetab (fileImg (l ++ m) nm)) ≤ n + ObjOp.cost (.file nm) := by
      refine Nat.le_trans this.size ?_
      simp [ObjOp.cost, fileImg, textOf]; omega
    simp only [ObjOp.run, Poff.addFile, h1, Res.ok_bind]
    refine ⟨_, l ++ m, rfl, ?_⟩
    exact {
      ident := this.ident, version := this.version, shsize := this.shsize, shoff := this.shoff, ftype := this.ftype
      arch := this.arch, entry := this.entry, name := this.name, nameIn := this.nameIn, typed := this.typed
      sizes := this.sizes, strs := this.strs, text := this.text, rodata := this.rodata, symtab := this.symtab
      symIn := this.symIn, rel := this.rel, relSmall := this.relSmall, filetab := this.filetab, fileIn := this.fileIn
      lineno := this.lineno, dbgfunc := this.dbgfunc, dbgRoom := this.dbgRoom, dbgSmall := this.dbgSmall, size := h5 }
  | line ln fi o =>
    refine ⟨_, l, rfl, ?_⟩
    have := inv_app h .lineno (by decide) (lineImg (ln, fi, o)) (c.add (.line ln fi o)) ⟨rfl, rfl, rfl, rfl⟩
      (by simp [Contents.add]) (by simp [Contents.add]) (by simp [Contents.add]) h.symIn (by simp [Contents.add])
      h.relSmall (by simp [Contents.add]) h.fileIn (by simp [Contents.add]) rfl (by decide)
    refine { this with size := Nat.le_trans this.size ?_ }
    simp [ObjOp.cost, lineImg]
  | dbg r =>
    obtain ⟨t, h1, h2, h3⟩ := addDebug_spec ⟨p.data .dbgfunc, p.debugAlloc⟩ r ho h.dbgRoom
    have hd : ∀ k, k ≠ Sec.dbgfunc → (p.put .dbgfunc t.data).data k = p.data k := by
      intro k hk; rw [put_data, if_neg hk]
    have hdd : (p.put .dbgfunc t.data).data .dbgfunc = t.data := by rw [put_data, if_pos rfl]
    refine ⟨{ p.put .dbgfunc t.data with debugAlloc := t.alloc }, l, ?_, ?_⟩
    · simp only [ObjOp.run, Poff.addDbg, h1, Res.ok_bind]
    · exact {
        ident := h.ident, version := h.version, shsize := h.shsize, shoff := h.shoff, ftype := h.ftype
        arch := h.arch, entry := h.entry, name := h.name, nameIn := h.nameIn, typed := put_typed h.typed _ _
        sizes := put_sizes h.sizes _ _
        strs := by
          have := h.strs
          unfold StrOK at this ⊢
          show (p.put .dbgfunc t.data).data .strtab = [] ∧ _ ∨ Table ((p.put .dbgfunc t.data).data .strtab) l
          rw [hd _ (by decide)]; exact this
        text := (hd _ (by decide)).trans h.text
        rodata := (hd _ (by decide)).trans h.rodata
        symtab := (hd _ (by decide)).trans h.symtab
        symIn := h.symIn
        rel := (hd _ (by decide)).trans h.rel
        relSmall := h.relSmall
        filetab := (hd _ (by decide)).trans h.filetab
        fileIn := h.fileIn
        lineno := (hd _ (by decide)).trans h.lineno
        dbgfunc := by
          show (p.put .dbgfunc t.data).data .dbgfunc = _
          rw [hdd, h2, h.dbgfunc]; simp [imagesOf, Contents.add]
        dbgRoom := by
          show ((p.put .dbgfunc t.data).data .dbgfunc).length ≤ t.alloc
          rw [hdd]; exact h3
        dbgSmall := by
          intro r' hr
          simp only [Contents.add, List.mem_append, List.mem_singleton] at hr
          rcases hr with hr | rfl
          · exact h.dbgSmall r' hr
          · exact ho
        size := by
          have h0 := h.size
          have hl : t.data.length = (p.data .dbgfunc).length + (12 + 4 * r.args.length) := by
            rw [h2]; simp [debugImage_length]
          show total (p.put .dbgfunc t.data) ≤ _
          unfold total at h0 ⊢
          have e1 := hd .text (by decide); have e2 := hd .rodata (by decide)
          have e3 := hd .symtab (by decide); have e4 := hd .rel (by decide)
          have e5 := hd .filetab (by decide); have e6 := hd .lineno (by decide)
          have e7 := hd .strtab (by decide)
          rw [e1, e2, e3, e4, e5, e6, e7, hdd]; simp only [ObjOp.cost]; omega }
  | ftype t nm =>
    obtain ⟨m, q, h1, h2, h3, h4⟩ := inv_addStr h (some nm) ho
    refine ⟨{ q with hdr := { q.hdr with ftype := t, name := BitVec.ofNat 32 (offOf (l ++ m) nm) } }, l ++ m, ?_, ?_⟩
    · simp only [ObjOp.run, Poff.setType, h1, Res.ok_bind]; rfl
    · exact {
        ident := h3.ident, version := h3.version, shsize := h3.shsize, shoff := h3.shoff, ftype := rfl
        arch := h3.arch, entry := h3.entry, name := rfl, nameIn := h2, typed := h3.typed
        sizes := h3.sizes, strs := h3.strs, text := h3.text, rodata := h3.rodata, symtab := h3.symtab
        symIn := h3.symIn, rel := h3.rel, relSmall := h3.relSmall, filetab := h3.filetab, fileIn := h3.fileIn
        lineno := h3.lineno, dbgfunc := h3.dbgfunc, dbgRoom := h3.dbgRoom, dbgSmall := h3.dbgSmall
        size := by have := h3.size; simp only [textOf, Option.getD_some] at this; show total q ≤ _; simp only [ObjOp.cost]; omega }
  | arch a =>
    refine ⟨_, l, rfl, ?_⟩
    exact {
        ident := h.ident, version := h.version, shsize := h.shsize, shoff := h.shoff, ftype := h.ftype
        arch := rfl, entry := h.entry, name := h.name, nameIn := h.nameIn, typed := h.typed
        sizes := h.sizes, strs := h.strs, text := h.text, rodata := h.rodata, symtab := h.symtab
        symIn := h.symIn, rel := h.rel, relSmall := h.relSmall, filetab := h.filetab, fileIn := h.fileIn
        lineno := h.lineno, dbgfunc := h.dbgfunc, dbgRoom := h.dbgRoom, dbgSmall := h.dbgSmall, size := h.size }
  | entry e =>
    refine ⟨_, l, rfl, ?_⟩
    exact {
        ident := h.ident, version := h.version, shsize := h.shsize, shoff := h.shoff, ftype := h.ftype
        arch := h.arch, entry := rfl, name := h.name, nameIn := h.nameIn, typed := h.typed
        sizes := h.sizes, strs := h.strs, text := h.text, rodata := h.rodata, symtab := h.symtab
        symIn := h.symIn, rel := h.rel, relSmall := h.relSmall, filetab := h.filetab, fileIn := h.fileIn
        lineno := h.lineno, dbgfunc := h.dbgfunc, dbgRoom := h.dbgRoom, dbgSmall := h.dbgSmall, size := h.size }

/-- A history of calls. -/
theorem inv_runOps (os : List ObjOp) : ∀ {p c l n}, Inv p c l n → (∀ o ∈ os, o.WF) →
    ∃ q l', runOps p os = .ok q ∧ Inv q (os.foldl Contents.add c) l' (n + costs os) := by
  induction os with
  | nil => intro p c l n h _; exact ⟨p, l, rfl, by simpa [costs] using h⟩
  | cons o os ih =>
    intro p c l n h hw
    obtain ⟨p1, l1, h1, h2⟩ := inv_run h o (hw o (by simp))
    obtain ⟨q, l2, h3, h4⟩ := ih h2 (fun o ho => hw o (by simp [ho]))
    refine ⟨q, l2, by simp only [runOps, h1, Res.ok_bind, h3], ?_⟩
    have : n + o.cost + costs os = n + costs (o :: os) := by simp [costs]; omega
    rw [← this]; exact h4

/-! ### Reading the tables -/

theorem getString_off {q : Poff} {L} (ht : Table (q.data .strtab) L) {s} (hs : s ∈ L)
    (hl : (q.data .strtab).length < 2 ^ 32) :
    getString q.strs (BitVec.ofNat 32 (offOf L s)).toNat = .ok s := by
  have h1 := offOf_denotes hs
  rw [← ht.1] at h1
  have hlt : offOf L s < (q.data .strtab).length := by
    obtain ⟨pre, post, e1, e2⟩ := h1
    rw [e1]; simp; omega
  rw [toNat_small (by omega)]
  simp only [Poff.strs, if_neg ht.ne_nil]
  exact getString_denotes h1 (ht.2.2 s hs)

theorem symLoop_spec {q : Poff} {L} (ht : Table (q.data .strtab) L)
    (hl : (q.data .strtab).length < 2 ^ 32) (he : (q.sh .symtab).entsize = 16)
    (hn : (q.sh .symtab).size.toNat = (q.data .symtab).length) :
    ∀ (ss : List LibSymbol) (pre : List Byte) (fuel : Nat),
      q.data .symtab = pre ++ ss.flatMap (symImg L) → (∀ s ∈ ss, textOf s.name ∈ L) →
      ss.length ≤ fuel → symLoop q fuel pre.length = .ok (ss.map named) := by
  intro ss
  induction ss with
  | nil =>
    intro pre fuel h _ _
    have : pre.length ≥ (q.sh .symtab).size.toNat := by rw [hn, h]; simp
    cases fuel <;> simp only [symLoop, if_pos this] <;> rfl
  | cons s ss ih =>
    intro pre fuel h hin hf
    cases fuel with
    | zero => simp at hf
    | succ fuel =>
      have hlen : (q.data .symtab).length = pre.length + (16 + (ss.flatMap (symImg L)).length) := by
        rw [h, List.flatMap_cons]; simp only [List.length_append, symImg, symImage_length]
      have h1 : ¬ pre.length ≥ (q.sh .symtab).size.toNat := by rw [hn, hlen]; omega
      have h2 : ¬ pre.length + 16 > (q.data .symtab).length := by rw [hlen]; omega
      generalize hnm : BitVec.ofNat 32 (offOf L (textOf s.name)) = nm
      have e : q.data .symtab = pre ++ ([s.stype, s.align, s.flags, 0] ++ (le32 nm ++ (le32 s.value ++
          (le32 s.size ++ ss.flatMap (symImg L))))) := by
        rw [h, List.flatMap_cons, symImg, hnm, symImage]; simp
      have e0 : ∀ i, i < 4 → (q.data .symtab).getD (pre.length + i) 0 = [s.stype, s.align, s.flags, 0].getD i 0 := by
        intro i hi
        rw [e, List.getD_eq_getElem?_getD, List.getElem?_append_right (by omega), Nat.add_sub_cancel_left,
          List.getElem?_append_left (by simp; omega), ← List.getD_eq_getElem?_getD]
      have r1 : rd32 (q.data .symtab) (pre.length + 4) = nm := by
        have : q.data .symtab = (pre ++ [s.stype, s.align, s.flags, 0]) ++ (le32 nm ++ (le32 s.value ++
          (le32 s.size ++ ss.flatMap (symImg L)))) := by rw [e]; simp
        rw [this]; exact rd32_le32 _ _ _ _ (by simp)
      have r2 : rd32 (q.data .symtab) (pre.length + 8) = s.value := by
        have : q.data .symtab = (pre ++ [s.stype, s.align, s.flags, 0] ++ le32 nm) ++ (le32 s.value ++
          (le32 s.size ++ ss.flatMap (symImg L))) := by rw [e]; simp
        rw [this]; exact rd32_le32 _ _ _ _ (by simp)
      have r3 : rd32 (q.data .symtab) (pre.length + 12) = s.size := by
        have : q.data .symtab = (pre ++ [s.stype, s.align, s.flags, 0] ++ le32 nm ++ le32 s.value) ++
          (le32 s.size ++ ss.flatMap (symImg L)) := by rw [e]; simp
        rw [this]; exact rd32_le32 _ _ _ _ (by simp)
      have hg := getString_off ht (hin s (by simp)) hl
      rw [hnm] at hg
      have hi := ih (pre ++ symImg L s) fuel (by rw [h, List.flatMap_cons, List.append_assoc])
        (fun t ht => hin t (by simp [ht])) (by simp at hf; omega)
      rw [List.length_append, symImg, symImage_length] at hi
      have a0 := e0 0 (by decide); have a1 := e0 1 (by decide); have a2 := e0 2 (by decide)
      simp only [Nat.add_zero] at a0
      have e16 : (q.sh .symtab).entsize.toNat = 16 := by rw [he]; rfl
      simp only [symLoop, if_neg h1, if_neg h2, r1, r2, r3, hg, Res.ok_bind, e16, hi, a0, a1, a2]
      simp [named]

theorem relLoop_spec {q : Poff} (he : (q.sh .rel).entsize = 8)
    (hn : (q.sh .rel).size.toNat = (q.data .rel).length) :
    ∀ (rs : List (Byte × U32 × U32)) (pre : List Byte) (fuel : Nat),
      q.data .rel = pre ++ rs.flatMap relImg → rs.length ≤ fuel →
      relLoop q fuel pre.length = .ok (rs.map fun (r : Byte × U32 × U32) => (r.2.1 <<< 8 ||| r.1.setWidth 32, r.2.2)) := by
  intro rs
  induction rs with
  | nil =>
    intro pre fuel h _
    have : pre.length ≥ (q.sh .rel).size.toNat := by rw [hn, h]; simp
    cases fuel <;> simp only [relLoop, if_pos this] <;> rfl
  | cons r rs ih =>
    intro pre fuel h hf
    cases fuel with
    | zero => simp at hf
    | succ fuel =>
      have hlen : (q.data .rel).length = pre.length + (8 + (rs.flatMap relImg).length) := by
        rw [h, List.flatMap_cons]; simp only [relImg, List.length_append, le32_length]
      have h1 : ¬ pre.length ≥ (q.sh .rel).size.toNat := by rw [hn, hlen]; omega
      have h2 : ¬ pre.length + 8 > (q.data .rel).length := by rw [hlen]; omega
      have e : q.data .rel = pre ++ (le32 (r.2.1 <<< 8 ||| r.1.setWidth 32) ++ (le32 r.2.2 ++ rs.flatMap relImg)) := by
        rw [h, List.flatMap_cons, relImg]; simp
      have r1 : rd32 (q.data .rel) pre.length = (r.2.1 <<< 8 ||| r.1.setWidth 32) := by
        rw [e]; exact rd32_le32 _ _ _ _ rfl
      have r2 : rd32 (q.data .rel) (pre.length + 4) = r.2.2 := by
        have : q.data .rel = (pre ++ le32 (r.2.1 <<< 8 ||| r.1.setWidth 32)) ++ (le32 r.2.2 ++ rs.flatMap relImg) := by
          rw [e]; simp
        rw [this]; exact rd32_le32 _ _ _ _ (by simp)
      have hi := ih (pre ++ relImg r) fuel (by rw [h, List.flatMap_cons, List.append_assoc]) (by simp at hf; omega)
      have hrl : (relImg r).length = 8 := by simp [relImg]
      rw [List.length_append, hrl] at hi
      have e8 : (q.sh .rel).entsize.toNat = 8 := by rw [he]; rfl
      simp only [relLoop, if_neg h1, if_neg h2, r1, r2, e8, hi, Res.ok_bind, List.map_cons]

theorem rawLineLoop_spec {q : Poff} (he : (q.sh .lineno).entsize = 8)
    (hn : (q.sh .lineno).size.toNat = (q.data .lineno).length) :
    ∀ (rs : List (Word × Word × U32)) (pre : List Byte) (fuel : Nat),
      q.data .lineno = pre ++ rs.flatMap lineImg → rs.length ≤ fuel →
      rawLineLoop q fuel pre.length = .ok rs := by
  intro rs
  induction rs with
  | nil =>
    intro pre fuel h _
    have : pre.length ≥ (q.sh .lineno).size.toNat := by rw [hn, h]; simp
    cases fuel <;> simp only [rawLineLoop, if_pos this]
  | cons r rs ih =>
    intro pre fuel h hf
    cases fuel with
    | zero => simp at hf
    | succ fuel =>
      have hlen : (q.data .lineno).length = pre.length + (8 + (rs.flatMap lineImg).length) := by
        rw [h, List.flatMap_cons]; simp only [lineImg, List.length_append, le32_length, le16_length]
      have h1 : ¬ pre.length ≥ (q.sh .lineno).size.toNat := by rw [hn, hlen]; omega
      have h2 : ¬ pre.length + 8 > (q.data .lineno).length := by rw [hlen]; omega
      have e : q.data .lineno = pre ++ (le16 r.1 ++ (le16 r.2.1 ++ (le32 r.2.2 ++ rs.flatMap lineImg))) := by
        rw [h, List.flatMap_cons, lineImg]; simp
      have r1 : rd16 (q.data .lineno) pre.length = r.1 := by
        rw [e]; exact rd16_le16 _ _ _ _ rfl
      have r2 : rd16 (q.data .lineno) (pre.length + 2) = r.2.1 := by
        have : q.data .lineno = (pre ++ le16 r.1) ++ (le16 r.2.1 ++ (le32 r.2.2 ++ rs.flatMap lineImg)) := by
          rw [e]; simp
        rw [this]; exact rd16_le16 _ _ _ _ (by simp)
      have r3 : rd32 (q.data .lineno) (pre.length + 4) = r.2.2 := by
        have : q.data .lineno = (pre ++ le16 r.1 ++ le16 r.2.1) ++ (le32 r.2.2 ++ rs.flatMap lineImg) := by
          rw [e]; simp
        rw [this]; exact rd32_le32 _ _ _ _ (by simp)
      have hi := ih (pre ++ lineImg r) fuel (by rw [h, List.flatMap_cons, List.append_assoc]) (by simp at hf; omega)
      have hrl : (lineImg r).length = 8 := by simp [lineImg]
      rw [List.length_append, hrl] at hi
      have e8 : (q.sh .lineno).entsize.toNat = 8 := by rw [he]; rfl
      simp only [rawLineLoop, if_neg h1, if_neg h2, r1, r2, r3, e8, hi, Res.ok_bind]

theorem fileLoop_spec {q : Poff} {L} (ht : Table (q.data .strtab) L)
    (hl : (q.data .strtab).length < 2 ^ 32)
    (hn : (q.sh .filetab).size.toNat = (q.data .filetab).length) :
    ∀ (ss : List (List Byte)) (pre : List Byte) (i fuel : Nat), pre.length = 4 * i →
      q.data .filetab = pre ++ ss.flatMap (fileImg L) → (∀ s ∈ ss, s ∈ L) →
      ss.length ≤ fuel → fileLoop q fuel i = .ok ss := by
  intro ss
  induction ss with
  | nil =>
    intro pre i fuel hp h _ _
    have : 4 * i ≥ (q.sh .filetab).size.toNat := by rw [hn, h]; simp [hp]
    cases fuel <;> simp only [fileLoop, if_pos this]
  | cons s ss ih =>
    intro pre i fuel hp h hin hf
    cases fuel with
    | zero => simp at hf
    | succ fuel =>
      have hlen : (q.data .filetab).length = 4 * i + (4 + (ss.flatMap (fileImg L)).length) := by
        rw [h, List.flatMap_cons]; simp only [fileImg, List.length_append, le32_length, hp]
      have h1 : ¬ 4 * i ≥ (q.sh .filetab).size.toNat := by rw [hn, hlen]; omega
      have h2 : ¬ 4 * i + 4 > (q.data .filetab).length := by rw [hlen]; omega
      have r1 : rd32 (q.data .filetab) (4 * i) = BitVec.ofNat 32 (offOf L s) := by
        rw [h, List.flatMap_cons]; exact rd32_le32 _ _ _ _ hp
      have hg := getString_off ht (hin s (by simp)) hl
      have hi := ih (pre ++ fileImg L s) (i + 1) fuel (by simp [fileImg, hp]; omega)
        (by rw [h, List.flatMap_cons, List.append_assoc])
        (fun t ht => hin t (by simp [ht])) (by simp at hf; omega)
      simp only [fileLoop, if_neg h1, if_neg h2, r1, hg, Res.ok_bind, hi]

theorem rli_type (t : Byte) (s : U32) :
    (((s <<< 8 ||| t.setWidth 32) &&& 0xff#32).setWidth 8 : Byte) = t := by
  apply byte_ext
  intro i hi
  rcases below8 hi with rfl | rfl | rfl | rfl | rfl | rfl | rfl | rfl <;> simp [BitVec.getLsbD_and, BitVec.getLsbD_or]

theorem rli_sym (t : Byte) (s : U32) (h : s.toNat < 2 ^ 24) : (s <<< 8 ||| t.setWidth 32) >>> 8 = s := by
  apply BitVec.eq_of_getLsbD_eq
  intro i hi
  have hs : 24 ≤ i → s.getLsbD i = false := by
    intro h24
    rw [← BitVec.testBit_toNat]
    exact Nat.testBit_lt_two_pow (Nat.lt_of_lt_of_le h (Nat.pow_le_pow_right (by decide) h24))
  simp only [BitVec.getLsbD_ushiftRight, BitVec.getLsbD_or, BitVec.getLsbD_shiftLeft, BitVec.getLsbD_setWidth]
  by_cases h24 : 24 ≤ i
  · rw [hs h24]; simp; omega
  · have : t.getLsbD (8 + i) = false := BitVec.getLsbD_of_ge _ _ (by omega)
    simp [this]; omega

theorem len_le_flatMap {α : Type} (f : α → List Byte) (l : List α) (h : ∀ x ∈ l, 0 < (f x).length) :
    l.length ≤ (l.flatMap f).length := by
  induction l with
  | nil => simp
  | cons a l ih =>
    have := h a (by simp)
    have := ih (fun x hx => h x (by simp [hx]))
    simp only [List.flatMap_cons, List.length_append, List.length_cons]; omega

theorem len_flatMap {α : Type} (f : α → List Byte) (n : Nat) (l : List α) (h : ∀ x ∈ l, (f x).length = n) :
    (l.flatMap f).length = n * l.length := by
  induction l with
  | nil => simp
  | cons a l ih =>
    simp only [List.flatMap_cons, List.length_append, List.length_cons, h a (by simp),
      ih (fun x hx => h x (by simp [hx])), Nat.mul_succ]; omega

end Pas.Poff
