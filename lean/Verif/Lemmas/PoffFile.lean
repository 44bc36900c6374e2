import Verif.Lemmas.Poff
import Verif.Lemmas.PoffSwap
/-! Writing an object file and reading it back. -/
namespace Pas.Poff
open Pas.Spec

@[simp] theorem upd_same {α : Type} (f : Sec → α) (k : Sec) (v : α) : upd f k v k = v := by simp [upd]
theorem upd_ne {α : Type} (f : Sec → α) {k j : Sec} (v : α) (h : j ≠ k) : upd f k v j = f j := by
  simp [upd, h]
theorem upd_self {α : Type} (f : Sec → α) (k : Sec) : upd f k (f k) = f := by
  funext j; by_cases h : j = k
  · subst h; simp
  · exact upd_ne f _ h
theorem upd_upd {α : Type} (f : Sec → α) (k : Sec) (v w : α) : upd (upd f k v) k w = upd f k w := by
  funext j; by_cases h : j = k
  · subst h; simp
  · rw [upd_ne _ _ h, upd_ne _ _ h, upd_ne _ _ h]

/-! ### Images of headers -/

theorem FileHdr.swap_swap (h : FileHdr) : h.swap.swap = h := by
  cases h; simp [FileHdr.swap, swap16_swap16, swap32_swap32]

theorem SecHdr.swap_swap (h : SecHdr) : h.swap.swap = h := by
  cases h; simp [SecHdr.swap, swap16_swap16, swap32_swap32]

theorem SecHdr.image_length (h : SecHdr) : h.image.length = 20 := by simp [SecHdr.image]

theorem FileHdr.image_length (h : FileHdr) (hi : h.ident.length = 4) : h.image.length = 24 := by
  simp [FileHdr.image, hi]

theorem secHdrOf_image (h : SecHdr) : secHdrOf h.image = h := by
  have e2 : h.image = [h.stype, h.flags] ++ (le16 h.entsize ++ (le32 h.name ++ (le32 h.addr ++ (le32 h.offset ++ le32 h.size)))) := rfl
  have e4 : h.image = ([h.stype, h.flags] ++ le16 h.entsize) ++ (le32 h.name ++ (le32 h.addr ++ (le32 h.offset ++ le32 h.size))) := by simp [SecHdr.image]
  have e8 : h.image = ([h.stype, h.flags] ++ le16 h.entsize ++ le32 h.name) ++ (le32 h.addr ++ (le32 h.offset ++ le32 h.size)) := by simp [SecHdr.image]
  have e12 : h.image = ([h.stype, h.flags] ++ le16 h.entsize ++ le32 h.name ++ le32 h.addr) ++ (le32 h.offset ++ le32 h.size) := by simp [SecHdr.image]
  have e16 : h.image = ([h.stype, h.flags] ++ le16 h.entsize ++ le32 h.name ++ le32 h.addr ++ le32 h.offset) ++ (le32 h.size ++ []) := by simp [SecHdr.image]
  have r2 : rd16 h.image 2 = h.entsize := by rw [e2]; exact rd16_le16 _ _ _ _ (by simp)
  have r4 : rd32 h.image 4 = h.name := by rw [e4]; exact rd32_le32 _ _ _ _ (by simp)
  have r8 : rd32 h.image 8 = h.addr := by rw [e8]; exact rd32_le32 _ _ _ _ (by simp)
  have r12 : rd32 h.image 12 = h.offset := by rw [e12]; exact rd32_le32 _ _ _ _ (by simp)
  have r16 : rd32 h.image 16 = h.size := by rw [e16]; exact rd32_le32 _ _ _ _ (by simp)
  simp only [secHdrOf, r2, r4, r8, r12, r16]
  cases h; simp [SecHdr.image]

theorem fileHdrOf_image (h : FileHdr) (hi : h.ident.length = 4) : fileHdrOf h.image = h := by
  obtain ⟨a, b, c, d, hid⟩ := len4 hi
  have e8 : h.image = (h.ident ++ [h.version, h.ftype, h.arch, h.padding]) ++ (le16 h.shsize ++ (le16 h.shnum ++ (le32 h.name ++ (le32 h.entry ++ le32 h.shoff)))) := by simp [FileHdr.image]
  have e10 : h.image = (h.ident ++ [h.version, h.ftype, h.arch, h.padding] ++ le16 h.shsize) ++ (le16 h.shnum ++ (le32 h.name ++ (le32 h.entry ++ le32 h.shoff))) := by simp [FileHdr.image]
  have e12 : h.image = (h.ident ++ [h.version, h.ftype, h.arch, h.padding] ++ le16 h.shsize ++ le16 h.shnum) ++ (le32 h.name ++ (le32 h.entry ++ le32 h.shoff)) := by simp [FileHdr.image]
  have e16 : h.image = (h.ident ++ [h.version, h.ftype, h.arch, h.padding] ++ le16 h.shsize ++ le16 h.shnum ++ le32 h.name) ++ (le32 h.entry ++ le32 h.shoff) := by simp [FileHdr.image]
  have e20 : h.image = (h.ident ++ [h.version, h.ftype, h.arch, h.padding] ++ le16 h.shsize ++ le16 h.shnum ++ le32 h.name ++ le32 h.entry) ++ (le32 h.shoff ++ []) := by simp [FileHdr.image]
  have r8 : rd16 h.image 8 = h.shsize := by rw [e8]; exact rd16_le16 _ _ _ _ (by simp [hid])
  have r10 : rd16 h.image 10 = h.shnum := by rw [e10]; exact rd16_le16 _ _ _ _ (by simp [hid])
  have r12 : rd32 h.image 12 = h.name := by rw [e12]; exact rd32_le32 _ _ _ _ (by simp [hid])
  have r16 : rd32 h.image 16 = h.entry := by rw [e16]; exact rd32_le32 _ _ _ _ (by simp [hid])
  have r20 : rd32 h.image 20 = h.shoff := by rw [e20]; exact rd32_le32 _ _ _ _ (by simp [hid])
  simp only [fileHdrOf, r8, r10, r12, r16, r20]
  cases h; simp at hid; subst hid; simp [FileHdr.image]

/-! ### Strings of an object -/

/-- The strings of an object. -/
def StrOK (p : Poff) (l : List (List Byte)) : Prop :=
  (p.data .strtab = [] ∧ l = [[]]) ∨ Table (p.data .strtab) l

theorem Table.ne_nil {t l} (h : Table t l) : t ≠ [] := by
  obtain ⟨h1, h2, _⟩ := h
  cases l with
  | nil => simp at h2
  | cons x l => rw [h1, encStrs_cons]; simp

theorem addStr_spec {p : Poff} {l} (h : StrOK p l) (s : Option (List Byte)) (hs : ∀ x, s = some x → IsCStr x) :
    ∃ m, Table (encStrs (l ++ m)) (l ++ m) ∧ textOf s ∈ l ++ m ∧
      p.addStr s = .ok (offOf (l ++ m) (textOf s), p.put .strtab (encStrs (l ++ m))) := by
  have key : ∀ t, Table t l → ∃ m, Table (encStrs (l ++ m)) (l ++ m) ∧ textOf s ∈ l ++ m ∧
      addString (some t) s = .ok (offOf (l ++ m) (textOf s), encStrs (l ++ m)) := by
    intro t ht
    cases s with
    | none =>
      refine ⟨[], ?_, ?_, ?_⟩
      · rw [List.append_nil]; exact ht.1 ▸ ht
      · rw [List.append_nil]
        have := ht.2.1
        cases l with
        | nil => simp at this
        | cons x l => simp at this; simp [textOf, this]
      · rw [addString_null, List.append_nil, ← ht.1]; simp [textOf, offOf_nil ht]
    | some s =>
      obtain ⟨l', a, b, c, ⟨m, d⟩, _⟩ := addString_spec ht s (hs s rfl)
      subst d
      exact ⟨m, a, c, b⟩
  rcases h with ⟨h1, h2⟩ | h
  · obtain ⟨m, a, c, b⟩ := key [0#8] (h2 ▸ table_init)
    refine ⟨m, a, c, ?_⟩
    have : addString p.strs s = addString (some [0#8]) s := by simp [Poff.strs, h1, addString]
    simp only [Poff.addStr, this, b, Res.ok_bind]
  · obtain ⟨m, a, c, b⟩ := key _ h
    refine ⟨m, a, c, ?_⟩
    simp only [Poff.addStr, Poff.strs, h.ne_nil, if_false, b, Res.ok_bind]

theorem name_cstr (k : Sec) : IsCStr k.name := by
  cases k <;> (unfold IsCStr; decide +kernel)

/-! ### Writing section headers -/

/-- Sum of section sizes. -/
def sumSizes (sh : Sec → SecHdr) (a : List Sec) : U32 := a.foldr (fun k s => (sh k).size + s) 0

theorem have_congr {p q : Poff} (h : ∀ k, k ≠ .strtab → (q.sh k).size = (p.sh k).size) :
    q.have = p.have := by
  funext k
  by_cases hk : k = .strtab
  · simp [Poff.have, hk]
  · simp [Poff.have, h k hk]

theorem writeHdrs_spec :
    ∀ (ks : List Sec), ks.Nodup → Sec.strtab ∉ ks → ∀ (p : Poff) (off : U32) (l), StrOK p l →
      ∃ out p' m, writeHdrs (ks ++ [.strtab]) p off = .ok (out, p') ∧
        p'.hdr = p.hdr ∧ p'.fileAlloc = p.fileAlloc ∧ p'.debugAlloc = p.debugAlloc ∧
        (∀ k, k ≠ .strtab → p'.data k = p.data k) ∧
        p'.data .strtab = encStrs (l ++ m) ∧ Table (encStrs (l ++ m)) (l ++ m) ∧
        (∀ k, k ≠ .strtab → k ∉ ks → p'.sh k = p.sh k) ∧
        (∀ k, (p'.sh k).stype = (p.sh k).stype ∧ (p'.sh k).flags = (p.sh k).flags ∧
          (p'.sh k).entsize = (p.sh k).entsize) ∧
        (∀ k, k ≠ .strtab → (p'.sh k).size = (p.sh k).size) ∧
        (p'.sh .strtab).size = BitVec.ofNat 32 (p'.data .strtab).length ∧
        out = ((ks ++ [Sec.strtab]).filter p.have).flatMap (fun k => (p'.sh k).swap.image) ∧
        ∀ a k b, (ks ++ [Sec.strtab]).filter p.have = a ++ k :: b →
          (p'.sh k).offset = off + sumSizes p'.sh a := by
  intro ks
  induction ks with
  | nil =>
    intro _ _ p off l hl
    obtain ⟨m, h1, _, h2⟩ := addStr_spec hl (some Sec.strtab.name)
      (fun x hx => by injection hx with hx; subst hx; exact name_cstr _)
    have hh : p.have .strtab = true := by simp [Poff.have]
    generalize hi : offOf (l ++ m) (textOf (some Sec.strtab.name)) = idx at h2
    obtain ⟨q, hq⟩ : ∃ q, q = p.put .strtab (encStrs (l ++ m)) := ⟨_, rfl⟩
    obtain ⟨h', hh'⟩ : ∃ h', h' = (q.sh .strtab).placed (BitVec.ofNat 32 idx) off := ⟨_, rfl⟩
    refine ⟨h'.swap.image ++ [], ⟨q.hdr, upd q.sh .strtab h', q.data, q.fileAlloc, q.debugAlloc⟩, m, ?_, ?_⟩
    · simp only [List.nil_append, writeHdrs, hh, if_true, h2, Res.ok_bind, ← hq, ← hh']
    · subst hh' hq
      simp only [Poff.put, SecHdr.placed]
      refine ⟨trivial, trivial, trivial, ?_, ?_, h1, ?_, ?_, ?_, ?_, ?_, ?_⟩
      · intro k hk; exact upd_ne _ _ hk
      · simp
      · intro k hk _; rw [upd_ne _ _ hk, upd_ne _ _ hk]
      · intro k
        by_cases hk : k = .strtab
        · subst hk; simp
        · rw [upd_ne _ _ hk, upd_ne _ _ hk]; exact ⟨rfl, rfl, rfl⟩
      · intro k hk; rw [upd_ne _ _ hk, upd_ne _ _ hk]
      · simp
      · simp [hh]
      · intro a k b hab
        simp only [List.nil_append, List.filter_cons, hh, if_true, List.filter_nil] at hab
        cases a with
        | nil =>
          simp at hab; obtain ⟨hk, _⟩ := hab; subst hk
          simp [sumSizes]
        | cons x a => simp at hab
  | cons j ks ih =>
    intro hnd hns p off l hl
    have hj : j ≠ .strtab := fun e => hns (by simp [e])
    have hns' : Sec.strtab ∉ ks := fun e => hns (by simp [e])
    obtain ⟨hjk, hnd'⟩ := List.nodup_cons.mp hnd
    by_cases hh : p.have j = true
    · obtain ⟨m, h1, _, h2⟩ := addStr_spec hl (some j.name)
        (fun x hx => by injection hx with hx; subst hx; exact name_cstr _)
      generalize hi : offOf (l ++ m) (textOf (some j.name)) = idx at h2
      generalize hq : p.put .strtab (encStrs (l ++ m)) = q at h2
      generalize hh' : (q.sh j).placed (BitVec.ofNat 32 idx) off = h'
      generalize hq2 : ({ q with sh := upd q.sh j h' } : Poff) = q2
      have qsh : ∀ k, k ≠ .strtab → q.sh k = p.sh k := by
        intro k hk; subst hq; exact upd_ne _ _ hk
      have q2data : q2.data = upd p.data .strtab (encStrs (l ++ m)) := by subst hq2 hq; rfl
      have q2sh : ∀ k, k ≠ j → q2.sh k = q.sh k := by
        intro k hk; subst hq2; exact upd_ne _ _ hk
      have q2j : q2.sh j = h' := by subst hq2; simp
      have hs2 : StrOK q2 (l ++ m) := Or.inr (by rw [q2data]; simpa using h1)
      obtain ⟨out, p', m', c1, c2, c3, c4, c5, c6, c7, c8, c9, c10, c11, c12, c13⟩ :=
        ih hnd' hns' q2 (off + h'.size) (l ++ m) hs2
      have hsz : ∀ k, k ≠ .strtab → (q2.sh k).size = (p.sh k).size := by
        intro k hk
        by_cases hkj : k = j
        · subst hkj; rw [q2j, ← hh', qsh k hk]; rfl
        · rw [q2sh k hkj, qsh k hk]
      have hhave : q2.have = p.have := have_congr hsz
      have pj : p'.sh j = h' := by rw [c8 j hj hjk, q2j]
      refine ⟨h'.swap.image ++ out, p', m ++ m', ?_, ?_, ?_, ?_, ?_, ?_, ?_, ?_, ?_, ?_, ?_, ?_, ?_⟩
      · simp only [List.cons_append, writeHdrs, hh, if_true, h2, Res.ok_bind, hh', hq2, c1]
      · rw [c2]; subst hq2 hq; rfl
      · rw [c3]; subst hq2 hq; rfl
      · rw [c4]; subst hq2 hq; rfl
      · intro k hk; rw [c5 k hk, q2data, upd_ne _ _ hk]
      · rw [c6, List.append_assoc]
      · rw [← List.append_assoc]; exact c7
      · intro k hk hkn
        have hkj : k ≠ j := fun e => hkn (by simp [e])
        rw [c8 k hk (fun e => hkn (by simp [e])), q2sh k hkj, qsh k hk]
      · intro k
        obtain ⟨d1, d2, d3⟩ := c9 k
        rw [d1, d2, d3]
        by_cases hkj : k = j
        · subst hkj; rw [q2j, ← hh', qsh k hj]; exact ⟨rfl, rfl, rfl⟩
        · rw [q2sh k hkj]
          by_cases hks : k = .strtab
          · subst hks; subst hq; simp [Poff.put]
          · rw [qsh k hks]; exact ⟨rfl, rfl, rfl⟩
      · intro k hk; rw [c10 k hk, hsz k hk]
      · exact c11
      · rw [c12, hhave]
        simp only [List.cons_append, List.filter_cons, hh, if_true, List.flatMap_cons, pj]
      · intro a k b hab
        simp only [List.cons_append, List.filter_cons, hh, if_true] at hab
        cases a with
        | nil =>
          simp at hab; obtain ⟨hk, _⟩ := hab; subst hk
          rw [pj, ← hh']; simp [sumSizes, SecHdr.placed]
        | cons x a =>
          simp at hab
          obtain ⟨hx, hab⟩ := hab
          subst hx
          rw [c13 a k b (by rw [hhave]; simpa using hab)]
          have : sumSizes p'.sh (j :: a) = h'.size + sumSizes p'.sh a := by
            simp [sumSizes, pj]
          rw [this, BitVec.add_assoc]
    · have hh0 : p.have j = false := by simpa using hh
      obtain ⟨out, p', m, c1, c2, c3, c4, c5, c6, c7, c8, c9, c10, c11, c12, c13⟩ :=
        ih hnd' hns' p off l hl
      refine ⟨out, p', m, ?_, c2, c3, c4, c5, c6, c7, ?_, c9, c10, c11, ?_, ?_⟩
      · simp only [List.cons_append, writeHdrs, hh0, Bool.false_eq_true, if_false, c1]
      · intro k hk hkn; exact c8 k hk (fun e => hkn (by simp [e]))
      · rw [c12]; simp [List.filter_cons, hh0]
      · intro a k b hab
        apply c13 a k b
        simpa [List.filter_cons, hh0] using hab

/-! ### Reading section headers -/

theorem readAt_of_drop {f : List Byte} {off n : Nat} {d rest : List Byte} (h : f.drop off = d ++ rest)
    (hd : d.length = n) : readAt f off n = some d := by
  subst hd
  simp [readAt, h]

theorem readHdrs_spec (f : List Byte) (sh' : Sec → SecHdr) :
    ∀ (P : List Sec) (off : Nat) (rest : List Byte) (sh0 : Sec → SecHdr),
      f.drop off = P.flatMap (fun k => (sh' k).swap.image) ++ rest →
      (∀ k ∈ P, destOf (sh' k) = some k) →
      ∃ sh, readHdrs f 20 P.length off sh0 = .ok sh ∧
        ∀ k, sh k = if k ∈ P then sh' k else sh0 k := by
  intro P
  induction P with
  | nil => intro off rest sh0 _ _; exact ⟨sh0, rfl, by simp⟩
  | cons j P ih =>
    intro off rest sh0 h hd
    simp only [List.flatMap_cons, List.append_assoc] at h
    have h1 := readAt_of_drop (n := 20) h (SecHdr.image_length _)
    have h2 : f.drop (off + 20) = P.flatMap (fun k => (sh' k).swap.image) ++ rest := by
      rw [← List.drop_drop, h]
      rw [← SecHdr.image_length (sh' j).swap, List.drop_left]
    obtain ⟨sh, e1, e2⟩ := ih (off + 20) rest (upd sh0 j (sh' j)) h2 (fun k hk => hd k (by simp [hk]))
    refine ⟨sh, ?_, ?_⟩
    · simp only [List.length_cons, readHdrs, h1, secHdrOf_image, SecHdr.swap_swap, hd j (by simp), e1]
    · intro k
      rw [e2 k]
      by_cases hk : k ∈ P
      · simp [hk]
      · by_cases hkj : k = j
        · subst hkj; simp [hk]
        · simp [hk, hkj, upd_ne _ _ hkj]

/-! ### Section data -/

/-- `swapData` as a function of what it uses. -/
def swapRaw (k : Sec) (fa da ent n rs : Nat) (d : List Byte) : Res (List Byte) :=
  match k with
  | .symtab => swapLoop d.length symFields ent n (n + 1) 0 d
  | .rel => swapLoop d.length relFields ent n (n + 1) 0 d
  | .lineno => swapLoop d.length lineFields ent n (n + 1) 0 d
  | .filetab => swapFileLoop fa ent n (n + 1) 0 d
  | .dbgfunc => swapDebugLoop da rs (rs + 1) 0 d
  | _ => .ok d

theorem swapData_raw (p : Poff) (k : Sec) :
    p.swapData k = swapRaw k p.fileAlloc p.debugAlloc (p.sh k).entsize.toNat (p.sh k).size.toNat
      (p.sh .rel).size.toNat (p.data k) := by
  cases k <;> rfl

/-- Swapping turns `d` into `d'` and back, whatever has been allocated. -/
def TwoWay0 (k : Sec) (ent n rs : Nat) (d d' : List Byte) : Prop :=
  d'.length = d.length ∧ ∀ fa da, swapRaw k fa da ent n rs d = .ok d' ∧
    swapRaw k fa da ent n rs d' = .ok d

/-- `TwoWay0` for the sections of an object. -/
def Poff.TwoWay (p : Poff) (k : Sec) (d' : List Byte) : Prop :=
  TwoWay0 k (p.sh k).entsize.toNat (p.sh k).size.toNat (p.sh .rel).size.toNat (p.data k) d'

theorem writeData_spec (dimg : Sec → List Byte) :
    ∀ (ks : List Sec) (p : Poff), (∀ k ∈ ks, p.have k = true → p.TwoWay k (dimg k)) →
      writeData ks p = .ok ((ks.filter p.have).flatMap dimg, p) := by
  intro ks
  induction ks with
  | nil => intro p _; rfl
  | cons j ks ih =>
    intro p h
    have ihp := ih p (fun k hk => h k (by simp [hk]))
    by_cases hh : p.have j = true
    · obtain ⟨_, h2⟩ := h j (by simp) hh
      have e1 : p.swapData j = .ok (dimg j) := by
        rw [swapData_raw]; exact (h2 _ _).1
      have e2 : ({ p with data := upd p.data j (dimg j) } : Poff).swapData j = .ok (p.data j) := by
        rw [swapData_raw]; simp only [upd_same]; exact (h2 _ _).2
      simp only [writeData, hh, if_true, e1, Res.ok_bind, e2, upd_upd, upd_self, ihp,
        List.filter_cons, List.flatMap_cons]
    · have hh0 : p.have j = false := by simpa using hh
      simp only [writeData, hh0, Bool.false_eq_true, if_false, ihp, List.filter_cons]

theorem alloced_data (p : Poff) (k : Sec) (n : Nat) :
    (p.alloced k n).data = p.data ∧ (p.alloced k n).sh = p.sh ∧ (p.alloced k n).hdr = p.hdr := by
  cases k <;> exact ⟨rfl, rfl, rfl⟩

theorem readData_spec (f : List Byte) (dimg D : Sec → List Byte) :
    ∀ (ks : List Sec) (q : Poff), ks.Nodup →
      (∀ k ∈ ks, (q.sh k).size ≠ 0 →
        readAt f (q.sh k).offset.toNat (q.sh k).size.toNat = some (dimg k) ∧
        ∀ fa da, swapRaw k fa da (q.sh k).entsize.toNat (q.sh k).size.toNat
          (q.sh .rel).size.toNat (dimg k) = .ok (D k)) →
      ∃ q', readData f ks q = .ok (.ok q') ∧ q'.hdr = q.hdr ∧ q'.sh = q.sh ∧
        ∀ k, q'.data k = if k ∈ ks ∧ (q.sh k).size ≠ 0 then D k else q.data k := by
  intro ks
  induction ks with
  | nil => intro q _ _; exact ⟨q, rfl, rfl, rfl, by simp⟩
  | cons j ks ih =>
    intro q hnd h
    obtain ⟨hjk, hnd'⟩ := List.nodup_cons.mp hnd
    by_cases hz : (q.sh j).size ≠ 0
    · obtain ⟨h1, h2⟩ := h j (by simp) hz
      obtain ⟨a1, a2, a3⟩ := alloced_data { q with data := upd q.data j (dimg j) } j (dimg j).length
      generalize hq1 : ({ q with data := upd q.data j (dimg j) } : Poff).alloced j (dimg j).length = q1 at a1 a2 a3
      have e1 : q1.swapData j = .ok (D j) := by
        rw [swapData_raw, a1, a2]; simp only [upd_same]; exact h2 _ _
      obtain ⟨q', b1, b2, b3, b4⟩ := ih { q1 with data := upd q1.data j (D j) } hnd'
        (by intro k hk hs
            simp only [a2] at hs ⊢
            exact h k (by simp [hk]) hs)
      refine ⟨q', ?_, ?_, ?_, ?_⟩
      · simp only [readData, hz, if_true, h1, hq1, e1, Res.ok_bind, b1, ne_eq, not_false_eq_true]
      · rw [b2]; exact a3
      · rw [b3]; exact a2
      · intro k
        rw [b4 k]
        simp only [a1, a2, upd_upd]
        by_cases hkj : k = j
        · subst hkj
          rw [if_neg (fun h => hjk h.1), if_pos ⟨by simp, hz⟩, upd_same]
        · simp [hkj, upd_ne _ _ hkj]
    · obtain ⟨q', b1, b2, b3, b4⟩ := ih q hnd' (fun k hk => h k (by simp [hk]))
      refine ⟨q', ?_, b2, b3, ?_⟩
      · simp only [readData, hz, if_false, b1]
      · intro k
        rw [b4 k]
        by_cases hkj : k = j
        · subst hkj
          rw [if_neg (fun h => hjk h.1), if_neg (fun h => hz h.2)]
        · simp [hkj]

end Pas.Poff
