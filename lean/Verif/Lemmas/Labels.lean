import Verif.Spec.Labels
import Verif.Lemmas.Encoding

/-! Helper lemmas for the finalization pass. -/
namespace Pas
open Spec

/-- The label table built from address `a` on. -/
def labelTable : List OpType → Nat → List (Nat × Nat)
  | [], _ => []
  | i :: l, a =>
    if i.op = Op.label.toByte then (i.arg2.toNat, a) :: labelTable l a
    else if i.op = Op.line.toByte then labelTable l a
    else labelTable l (a + byteSize i)

/-- The line table built from address `a` on. -/
def linesFrom : List OpType → Nat → List LineNo
  | [], _ => []
  | i :: l, a =>
    if i.op = Op.label.toByte then linesFrom l a
    else if i.op = Op.line.toByte then ⟨i.arg2, i.arg1, a⟩ :: linesFrom l a
    else linesFrom l (a + byteSize i)

theorem label_ne_line : Op.label.toByte ≠ Op.line.toByte := by decide
theorem label_ne_end : Op.label.toByte ≠ Op.end_.toByte := by decide
theorem line_ne_end : Op.line.toByte ≠ Op.end_.toByte := by decide

theorem isMark_false {i : OpType} (h1 : i.op ≠ Op.label.toByte) (h2 : i.op ≠ Op.line.toByte) :
    isMark i = false := by simp [isMark, h1, h2]

theorem isMark_label {i : OpType} (h1 : i.op = Op.label.toByte) : isMark i = true := by
  simp [isMark, h1]

theorem isMark_line {i : OpType} (h1 : i.op = Op.line.toByte) : isMark i = true := by
  simp [isMark, h1]

theorem realOps_mark {i : OpType} (l : List OpType) (h : isMark i = true) :
    realOps (i :: l) = realOps l := by simp [realOps, h]

theorem realOps_real {i : OpType} (l : List OpType) (h : isMark i = false) :
    realOps (i :: l) = i :: realOps l := by simp [realOps, h]

theorem addrOf_zero (p : List OpType) : addrOf p 0 = 0 := rfl

theorem addrOf_mark {i : OpType} (l : List OpType) (k : Nat) (h : isMark i = true) :
    addrOf (i :: l) (k + 1) = addrOf l k := by
  rw [addrOf, List.take_succ_cons, realOps_mark _ h]; rfl

theorem addrOf_real {i : OpType} (l : List OpType) (k : Nat) (h : isMark i = false) :
    addrOf (i :: l) (k + 1) = byteSize i + addrOf l k := by
  rw [addrOf, List.take_succ_cons, realOps_real _ h]; rfl

theorem labelAt_cons {i : OpType} {l : List OpType} {L : Word} {k : Nat}
    (h : LabelAt (i :: l) L k) :
    (k = 0 ∧ i = labelMark L) ∨ ∃ k', k = k' + 1 ∧ i ≠ labelMark L ∧ LabelAt l L k' := by
  obtain ⟨h1, h2⟩ := h
  cases k with
  | zero => exact .inl ⟨rfl, Option.some.inj h1⟩
  | succ k =>
    refine .inr ⟨k, rfl, fun e => h2 0 (by omega) (by rw [e]; rfl), h1, fun j hj => ?_⟩
    exact h2 (j + 1) (by omega)

theorem find_labelTable (p : List OpType) (hw : ∀ i ∈ p, WellFormed i) (a : Nat) (L : Word)
    {k : Nat} (h : LabelAt p L k) :
    findLabel (labelTable p a) L.toNat = some (a + addrOf p k) := by
  induction p generalizing a k with
  | nil => simp [LabelAt] at h
  | cons i l ih =>
    have ih := ih fun x hx => hw x (List.mem_cons_of_mem _ hx)
    rw [labelTable]
    rcases labelAt_cons h with ⟨rfl, rfl⟩ | ⟨k', rfl, hne, hl⟩
    · rw [if_pos (show (labelMark L).op = Op.label.toByte from rfl), findLabel,
        if_pos (show (labelMark L).arg2.toNat = L.toNat from rfl)]; rfl
    · split
      · next e =>
        have : i.arg2.toNat ≠ L.toNat := by
          intro e2
          apply hne
          obtain ⟨op, a1, a2⟩ := i
          have h8 := (hw _ List.mem_cons_self).no8
          simp only at e e2 h8
          rw [labelMark, e, h8 (by rw [e]; decide), BitVec.eq_of_toNat_eq e2]
        rw [findLabel, if_neg this, ih a hl, addrOf_mark _ _ (isMark_label e)]
      · next e =>
        split
        · next e2 => rw [ih a hl, addrOf_mark _ _ (isMark_line e2)]
        · next e2 => rw [ih _ hl, addrOf_real _ _ (isMark_false e e2)]; congr 1; omega

theorem find_noLabel (p : List OpType) (hw : ∀ i ∈ p, WellFormed i) (a : Nat) (L : Word)
    (h : NoLabel p L) : findLabel (labelTable p a) L.toNat = none := by
  induction p generalizing a with
  | nil => rfl
  | cons i l ih =>
    have ih := fun a => ih (fun x hx => hw x (List.mem_cons_of_mem _ hx)) a fun k => h (k + 1)
    rw [labelTable]
    split
    · next e =>
      have : i.arg2.toNat ≠ L.toNat := by
        intro e2
        apply h 0
        obtain ⟨op, a1, a2⟩ := i
        have h8 := (hw _ List.mem_cons_self).no8
        simp only at e e2 h8
        rw [labelMark, List.getElem?_cons_zero, e, h8 (by rw [e]; decide),
          BitVec.eq_of_toNat_eq e2]
      rw [findLabel, if_neg this, ih]
    · split <;> exact ih _

/-- The relocations with the positions counted from the beginning of a program that starts at
input offset `off`, instruction number `n`. -/
def relsIn (p : List OpType) (rs : List RelocAt) (off n : Nat) : List Reloc :=
  rs.map fun r => ⟨r.sym, r.kind, off + startOf p (r.pos - n)⟩

def relsOut (p : List OpType) (rs : List RelocAt) (a n : Nat) : List Reloc :=
  rs.map fun r => ⟨r.sym, r.kind, a + addrOf p (r.pos - n)⟩

theorem addrOf_le_startOf (p : List OpType) (k : Nat) : addrOf p k ≤ startOf p k := by
  rw [addrOf, startOf]
  generalize p.take k = l
  induction l with
  | nil => exact Nat.le_refl _
  | cons i l ih =>
    cases h : isMark i
    · rw [realOps_real _ h]; simp only [List.map_cons, List.sum_cons]; omega
    · rw [realOps_mark _ h]; simp only [List.map_cons, List.sum_cons]; omega

theorem endsOnce_cons {i : OpType} {l : List OpType} (h : EndsOnce (i :: l)) (hl : l ≠ []) :
    i.op ≠ Op.end_.toByte ∧ EndsOnce l := by
  refine ⟨h i ?_, fun x hx => h x ?_⟩
  · rw [List.dropLast_cons_of_ne_nil hl]; exact List.mem_cons_self
  · rw [List.dropLast_cons_of_ne_nil hl]; exact List.mem_cons_of_mem _ hx

theorem pass1_eq (l : List OpType) (hw : ∀ i ∈ l, WellFormed i) (he : EndsOnce l)
    (hend : l.getLast?.map (·.op) = some Op.end_.toByte) (tail : List Byte) (fuel : Nat)
    (hf : l.length ≤ fuel) (off n : Nat) (out : List Byte) (labels : List (Nat × Nat))
    (lines : List LineNo) (rs : List RelocAt) (orel : List Reloc) (hoff : out.length ≤ off)
    (hs : rs.Pairwise (fun a b => a.pos < b.pos)) (hn : ∀ r ∈ rs, n ≤ r.pos)
    (hr : ∀ r ∈ rs, ∃ i, l[r.pos - n]? = some i ∧ isMark i = false) :
    pass1 fuel ⟨encode l ++ tail, false⟩ off ⟨out, labels, lines, relsIn l rs off n, orel⟩ =
      .ok ⟨out ++ encode (realOps l), labels ++ labelTable l out.length,
        lines ++ linesFrom l out.length, [], orel ++ relsOut l rs out.length n⟩ := by
  induction l generalizing fuel off n out labels lines rs orel with
  | nil => simp at hend
  | cons i l ih =>
    obtain ⟨fuel, rfl⟩ : ∃ f, fuel = f + 1 := ⟨fuel - 1, by simp at hf; omega⟩
    have hwi := hw i List.mem_cons_self
    rw [pass1, encode_cons, List.append_assoc, getOpCode_bytes hwi]
    simp only
    by_cases hl : l = []
    · subst hl
      have hop : i.op = Op.end_.toByte := by simpa using hend
      have n1 : i.op ≠ Op.label.toByte := by rw [hop]; exact fun e => label_ne_end e.symm
      have n2 : i.op ≠ Op.line.toByte := by rw [hop]; exact fun e => line_ne_end e.symm
      have hm := isMark_false n1 n2
      rw [if_neg n1, if_neg n2, if_neg (by simpa using hop)]
      rw [realOps_real _ hm, encode_cons, labelTable, if_neg n1, if_neg n2, linesFrom, if_neg n1,
        if_neg n2]
      simp only [labelTable, linesFrom, List.append_nil]
      have hrs : rs = [] ∨ ∃ r, rs = [r] ∧ r.pos = n := by
        have key : ∀ r ∈ rs, r.pos = n := by
          intro r hr'
          obtain ⟨x, hx, _⟩ := hr r hr'
          have := hn r hr'
          have := (List.getElem?_eq_some_iff.mp hx).1
          simp at this
          omega
        match rs, key, hs with
        | [], _, _ => exact .inl rfl
        | [r], key, _ => exact .inr ⟨r, rfl, key r (by simp)⟩
        | r :: r' :: _, key, hs =>
          exfalso
          have h1 := key r (by simp)
          have h2 := key r' (by simp)
          rw [List.pairwise_cons] at hs
          have := hs.1 r' (by simp)
          omega
      rcases hrs with rfl | ⟨r, rfl, hp⟩
      · simp only [relsIn, relsOut, List.map_nil, writeOp, addOpCode, List.append_nil, realOps,
          List.filter_nil, show encode [] = [] from rfl]
      · simp only [relsIn, relsOut, List.map_cons, List.map_nil, writeOp, addOpCode, hp,
          Nat.sub_self]
        rw [if_pos (by rfl)]
        simp only [show startOf [i] 0 = 0 from rfl, Nat.add_zero, addrOf_zero]
        rw [show off - (off - out.length) = out.length by omega]
        simp only [realOps, List.filter_nil, show encode [] = [] from rfl, List.append_nil]
    · obtain ⟨hne, hel⟩ := endsOnce_cons he hl
      rw [show (i.op == Op.end_.toByte) = false by simpa using hne]
      have hend' : l.getLast?.map (·.op) = some Op.end_.toByte := by
        rw [List.getLast?_cons_of_ne_nil hl] at hend; exact hend
      have ih := fun fuel hf => ih (fun x hx => hw x (List.mem_cons_of_mem _ hx)) hel hend' fuel hf
      have hf : l.length ≤ fuel := by simp at hf; omega
      have hpos : 1 ≤ byteSize i := by rw [byteSize]; omega
      -- relocations further on
      have later : ∀ rs' : List RelocAt, (∀ r ∈ rs', n + 1 ≤ r.pos) →
          relsIn (i :: l) rs' off n = relsIn l rs' (off + byteSize i) (n + 1) := by
        intro rs' h
        refine List.map_congr_left fun r hr => ?_
        obtain ⟨m, hm⟩ : ∃ m, r.pos - n = m + 1 := ⟨r.pos - n - 1, by have := h r hr; omega⟩
        rw [hm, show r.pos - (n + 1) = m by omega]
        simp only [startOf, List.take_succ_cons, List.map_cons, List.sum_cons, Nat.add_assoc]
      by_cases e1 : i.op = Op.label.toByte
      · have hm := isMark_label e1
        have hgt : ∀ r ∈ rs, n + 1 ≤ r.pos := by
          intro r hr'
          obtain ⟨x, hx, hx2⟩ := hr r hr'
          have := hn r hr'
          rcases Nat.lt_or_ge n r.pos with h | h
          · exact h
          · rw [show r.pos - n = 0 by omega] at hx
            cases hx
            rw [hm] at hx2; cases hx2
        rw [if_pos e1, if_pos hne, later rs hgt,
          ih fuel hf (off + byteSize i) (n + 1) out _ lines rs orel (by omega) hs hgt ?_]
        · rw [realOps_mark _ hm, labelTable, if_pos e1, linesFrom, if_pos e1]
          simp only [List.append_assoc, List.cons_append, List.nil_append, relsOut]
          congr 3
          refine List.map_congr_left fun r hr => ?_
          obtain ⟨m, hm'⟩ : ∃ m, r.pos - n = m + 1 := ⟨r.pos - n - 1, by have := hgt r hr; omega⟩
          rw [hm', addrOf_mark _ _ hm, show r.pos - (n + 1) = m by omega]
        · intro r hr'
          obtain ⟨x, hx, hx2⟩ := hr r hr'
          refine ⟨x, ?_, hx2⟩
          rw [show r.pos - n = (r.pos - (n + 1)) + 1 by have := hgt r hr'; omega] at hx
          exact hx
      · by_cases e2 : i.op = Op.line.toByte
        · have hm := isMark_line e2
          have hgt : ∀ r ∈ rs, n + 1 ≤ r.pos := by
            intro r hr'
            obtain ⟨x, hx, hx2⟩ := hr r hr'
            have := hn r hr'
            rcases Nat.lt_or_ge n r.pos with h | h
            · exact h
            · rw [show r.pos - n = 0 by omega] at hx
              cases hx
              rw [hm] at hx2; cases hx2
          rw [if_neg e1, if_pos e2, if_pos hne, later rs hgt,
            ih fuel hf (off + byteSize i) (n + 1) out labels _ rs orel (by omega) hs hgt ?_]
          · rw [realOps_mark _ hm, labelTable, if_neg e1, if_pos e2, linesFrom, if_neg e1, if_pos e2]
            simp only [List.append_assoc, List.cons_append, List.nil_append, relsOut]
            congr 3
            refine List.map_congr_left fun r hr => ?_
            obtain ⟨m, hm'⟩ : ∃ m, r.pos - n = m + 1 := ⟨r.pos - n - 1, by have := hgt r hr; omega⟩
            rw [hm', addrOf_mark _ _ hm, show r.pos - (n + 1) = m by omega]
          · intro r hr'
            obtain ⟨x, hx, hx2⟩ := hr r hr'
            refine ⟨x, ?_, hx2⟩
            rw [show r.pos - n = (r.pos - (n + 1)) + 1 by have := hgt r hr'; omega] at hx
            exact hx
        · have hm := isMark_false e1 e2
          rw [if_neg e1, if_neg e2, if_pos hne]
          have hlen : (out ++ opBytes i).length = out.length + byteSize i := by
            rw [List.length_append, opBytes_length]
          have fin : ∀ rs' orel', rs'.Pairwise (fun a b : RelocAt => a.pos < b.pos) →
              (∀ r ∈ rs', n + 1 ≤ r.pos) →
              (∀ r ∈ rs', ∃ i', (i :: l)[r.pos - n]? = some i' ∧ isMark i' = false) →
              pass1 fuel ⟨encode l ++ tail, false⟩ (off + byteSize i)
                ⟨out ++ opBytes i, labels, lines, relsIn (i :: l) rs' off n, orel'⟩ =
              .ok ⟨out ++ encode (realOps (i :: l)), labels ++ labelTable (i :: l) out.length,
                lines ++ linesFrom (i :: l) out.length, [],
                orel' ++ relsOut (i :: l) rs' out.length n⟩ := by
            intro rs' orel' hs' hgt hr'
            rw [later rs' hgt, ih fuel hf (off + byteSize i) (n + 1) (out ++ opBytes i) labels lines
              rs' orel' (by omega) hs' hgt ?_]
            · rw [realOps_real _ hm, labelTable, if_neg e1, if_neg e2, linesFrom, if_neg e1,
                if_neg e2, encode_cons, hlen, List.append_assoc]
              congr 3
              refine List.map_congr_left fun r hr => ?_
              obtain ⟨m, hm'⟩ : ∃ m, r.pos - n = m + 1 := ⟨r.pos - n - 1, by have := hgt r hr; omega⟩
              rw [hm', addrOf_real _ _ hm, show r.pos - (n + 1) = m by omega, Nat.add_assoc]
            · intro r hr''
              obtain ⟨x, hx, hx2⟩ := hr' r hr''
              refine ⟨x, ?_, hx2⟩
              rw [show r.pos - n = (r.pos - (n + 1)) + 1 by have := hgt r hr''; omega] at hx
              exact hx
          cases rs with
          | nil => exact fin [] orel hs (by simp) (by simp)
          | cons r rs =>
            rw [List.pairwise_cons] at hs
            by_cases hp : r.pos = n
            · have h0 : (relsIn (i :: l) (r :: rs) off n) =
                  ⟨r.sym, r.kind, off⟩ :: relsIn (i :: l) rs off n := by
                simp only [relsIn, List.map_cons, hp, Nat.sub_self]; rfl
              rw [h0, writeOp]
              simp only [if_true, addOpCode]
              rw [show off - (off - out.length) = out.length by omega]
              rw [fin rs _ hs.2 (fun r' h => by have := hs.1 r' h; omega)
                (fun r' h => hr r' (List.mem_cons_of_mem _ h))]
              simp only [relsOut, List.map_cons, hp, Nat.sub_self, addrOf_zero, Nat.add_zero,
                List.append_assoc, List.cons_append, List.nil_append]
            · have hlt : n < r.pos := by have := hn r List.mem_cons_self; omega
              have hgt : ∀ r' ∈ r :: rs, n + 1 ≤ r'.pos := by
                intro r' h
                rcases List.mem_cons.mp h with rfl | h
                · omega
                · have := hs.1 r' h; omega
              have hoffne : off + startOf (i :: l) (r.pos - n) ≠ off := by
                obtain ⟨m, hm'⟩ : ∃ m, r.pos - n = m + 1 := ⟨r.pos - n - 1, by omega⟩
                rw [hm', startOf, List.take_succ_cons, List.map_cons, List.sum_cons]
                omega
              have : writeOp ⟨out, labels, lines, relsIn (i :: l) (r :: rs) off n, orel⟩ i off =
                  ⟨out ++ opBytes i, labels, lines, relsIn (i :: l) (r :: rs) off n, orel⟩ := by
                rw [writeOp]
                simp only [relsIn, List.map_cons, if_neg hoffne, addOpCode]
              rw [this]
              exact fin (r :: rs) orel (List.pairwise_cons.mpr hs) hgt hr

theorem linesFrom_eq (l : List OpType) (a : Nat) :
    linesFrom l a = (List.range l.length).filterMap fun k =>
      match l[k]? with
      | some i => if i.op = Op.line.toByte then some ⟨i.arg2, i.arg1, a + addrOf l k⟩ else none
      | none => none := by
  induction l generalizing a with
  | nil => rfl
  | cons i l ih =>
    rw [linesFrom, List.length_cons, List.range_succ_eq_map, List.filterMap_cons,
      List.filterMap_map]
    simp only [List.getElem?_cons_zero, Function.comp_def, List.getElem?_cons_succ]
    split
    · next e =>
      have e2 : i.op ≠ Op.line.toByte := by rw [e]; decide
      simp only [if_neg e2, addrOf_mark _ _ (isMark_label e)]
      exact ih a
    · next e =>
      split
      · next e2 =>
        simp only [if_pos e2, addrOf_zero, Nat.add_zero, addrOf_mark _ _ (isMark_line e2)]
        rw [ih a]
      · next e2 =>
        simp only [if_neg e2, addrOf_real _ _ (isMark_false e e2), ← Nat.add_assoc]
        exact ih _

theorem linesFrom_zero (l : List OpType) : linesFrom l 0 = lineTable l := by
  rw [linesFrom_eq, lineTable]
  simp only [Nat.zero_add]
  rfl

theorem pointwise_cons {α β : Type} {R : α → β → Prop} {x : α} {y : β} {a : List α} {b : List β}
    (h : R x y) (hr : Pointwise R a b) : Pointwise R (x :: a) (y :: b) := by
  refine ⟨by simp [hr.1], fun j u v hu hv => ?_⟩
  cases j with
  | zero => cases hu; cases hv; exact h
  | succ j => exact hr.2 j u v hu hv

theorem pointwise_map {α β : Type} {R : α → β → Prop} (f : α → β) {l : List α}
    (h : ∀ x ∈ l, R x (f x)) : Pointwise R l (l.map f) := by
  refine ⟨by simp, fun j u v hu hv => ?_⟩
  rw [List.getElem?_map, hu] at hv
  cases hv
  exact h u (List.mem_of_getElem? hu)

/-- The table of imported labels. -/
def undefTable : List Sym → Nat → List (Nat × Nat)
  | [], _ => []
  | s :: r, n =>
    if (s.type = .proc ∨ s.type = .func) ∧ s.undefined = true then
      (s.value, n) :: undefTable r (n + 1)
    else undefTable r (n + 1)

theorem find_undef (syms : List Sym) (L : Word) (n idx : Nat) (h : Imported syms L idx) :
    findLabel (undefTable syms n) L.toNat = some (n + idx) := by
  induction syms generalizing n idx with
  | nil => obtain ⟨⟨s, hs, _⟩, _⟩ := h; simp at hs
  | cons s r ih =>
    obtain ⟨⟨x, hx, h1, h2, h3⟩, hmin⟩ := h
    rw [undefTable]
    cases idx with
    | zero =>
      cases hx
      rw [if_pos ⟨h1, h2⟩, findLabel, if_pos h3]; rfl
    | succ idx =>
      have hr : Imported r L idx := ⟨⟨x, hx, h1, h2, h3⟩, fun j hj y hy =>
        hmin (j + 1) (by omega) y hy⟩
      have h0 := hmin 0 (by omega) s rfl
      rw [show n + (idx + 1) = n + 1 + idx by omega]
      split
      · next hc =>
        rw [findLabel, if_neg fun e => h0 ⟨hc.1, hc.2, e⟩]
        exact ih _ _ hr
      · exact ih _ _ hr

theorem undef_find (syms : List Sym) (L : Word) (n v : Nat)
    (h : findLabel (undefTable syms n) L.toNat = some v) :
    ∃ idx, v = n + idx ∧ Imported syms L idx := by
  induction syms generalizing n with
  | nil => simp [undefTable, findLabel] at h
  | cons s r ih =>
    rw [undefTable] at h
    have next : findLabel (undefTable r (n + 1)) L.toNat = some v →
        ¬ ((s.type = .proc ∨ s.type = .func) ∧ s.undefined = true ∧ s.value = L.toNat) →
        ∃ idx, v = n + idx ∧ Imported (s :: r) L idx := by
      intro h hn
      obtain ⟨idx, rfl, ⟨x, hx, hx2⟩, hm⟩ := ih _ h
      refine ⟨idx + 1, by omega, ⟨x, hx, hx2⟩, fun j hj y hy => ?_⟩
      cases j with
      | zero => cases hy; exact hn
      | succ j => exact hm j (by omega) y hy
    split at h
    · next hc =>
      rw [findLabel] at h
      split at h
      · next e =>
        cases h
        exact ⟨0, rfl, ⟨s, rfl, hc.1, hc.2, e⟩, fun j hj => absurd hj (by omega)⟩
      · next e => exact next h fun hh => e hh.2.2
    · next hc => exact next h fun hh => hc ⟨hh.1, hh.2.1⟩

theorem pass2_eq (p : List OpType) (hw : ∀ i ∈ p, WellFormed i) (syms : List Sym) (n : Nat)
    (h : SymsOk p syms) :
    ∃ syms', pass2 (labelTable p 0) n syms = some (syms', undefTable syms n) ∧
      Pointwise (SymResolved p) syms syms' := by
  induction syms generalizing n with
  | nil => exact ⟨[], rfl, rfl, by simp⟩
  | cons s r ih =>
    obtain ⟨syms', h1, h2⟩ := ih (n + 1) fun x hx => h x (List.mem_cons_of_mem _ hx)
    rw [pass2, h1, undefTable]
    simp only [Option.bind_eq_bind, Option.bind_some]
    by_cases ht : s.type = .proc ∨ s.type = .func
    · rw [if_pos ht]
      cases hu : s.undefined
      · obtain ⟨L, k, hL, hk⟩ := h s List.mem_cons_self ⟨ht, hu⟩
        rw [if_neg (by simp), if_neg (by simp), ← hL, find_labelTable p hw 0 L hk]
        refine ⟨_, rfl, pointwise_cons ?_ h2⟩
        rw [Nat.zero_add]
        have := SymResolved.label ⟨ht, hu⟩ hL hk
        rwa [hu] at this
      · rw [if_pos rfl, if_pos ⟨ht, rfl⟩]
        exact ⟨_, rfl, pointwise_cons (.other fun hc => by rw [hc.2] at hu; cases hu) h2⟩
    · rw [if_neg ht, if_neg fun hc => ht hc.1]
      exact ⟨_, rfl, pointwise_cons (.other fun hc => ht hc.1) h2⟩

/-- The finished instruction. -/
def fin3 (labels : List (Nat × Nat)) (i : OpType) : OpType :=
  match Op.ofByte i.op with
  | some o =>
    if o = .pcal ∨ pass3Jump o = true then
      { i with arg2 := (findLabel labels i.arg2.toNat).elim 0 (BitVec.ofNat 16 ·) }
    else i
  | none => i

/-- The imported symbol called, if any. -/
def imp3 (labels undef : List (Nat × Nat)) (i : OpType) : Option Nat :=
  if i.op = Op.pcal.toByte then
    match findLabel labels i.arg2.toNat with
    | some _ => none
    | none => findLabel undef i.arg2.toNat
  else none

/-- The relocations generated from address `pc` on. -/
def gens (labels undef : List (Nat × Nat)) : List OpType → Nat → List Reloc
  | [], _ => []
  | i :: l, pc =>
    (match imp3 labels undef i with | some idx => [⟨idx, RLT_PCAL, pc⟩] | none => []) ++
      gens labels undef l (pc + byteSize i)

theorem fin3_op (labels : List (Nat × Nat)) (i : OpType) : (fin3 labels i).op = i.op := by
  unfold fin3
  split
  · split <;> rfl
  · rfl

theorem fin3_size (labels : List (Nat × Nat)) (i : OpType) :
    byteSize (fin3 labels i) = byteSize i := by rw [byteSize, byteSize, fin3_op]

theorem pass3Op_eq (labels undef : List (Nat × Nat)) (i : OpType) (pc : Nat) {o : Op}
    (ho : o.toByte = i.op)
    (hl : o = .pcal ∨ pass3Jump o = true → (∃ v, findLabel labels i.arg2.toNat = some v) ∨
      o = .pcal ∧ findLabel labels i.arg2.toNat = none ∧
        ∃ v, findLabel undef i.arg2.toNat = some v) :
    pass3Op labels undef i pc = some (fin3 labels i,
      match imp3 labels undef i with | some idx => [⟨idx, RLT_PCAL, pc⟩] | none => []) := by
  unfold pass3Op fin3 imp3
  rw [← ho, Op.ofByte_toByte]
  by_cases hp : o = .pcal
  · subst hp
    simp only [true_or, if_true]
    rcases hl (.inl rfl) with ⟨v, hv⟩ | ⟨_, hn, v, hv⟩
    · rw [hv]; rfl
    · rw [hn, hv]; rfl
  · have hb : o.toByte ≠ Op.pcal.toByte := fun e => hp (Op.toByte_inj e)
    rw [if_neg hb]
    by_cases hj : pass3Jump o = true
    · rcases hl (.inr hj) with ⟨v, hv⟩ | ⟨hc, _⟩
      · cases o <;> first | (exact absurd rfl hp) | (exact absurd hj (by decide)) | (simp [hv, pass3Jump])
      · exact absurd hc hp
    · cases o <;> first | (exact absurd rfl hp) | (exact absurd rfl hj) | (simp [pass3Jump])

theorem pass3_eq (labels undef : List (Nat × Nat)) (l : List OpType)
    (hw : ∀ i ∈ l, WellFormed i) (he : EndsOnce l)
    (hend : l.getLast?.map (·.op) = some Op.end_.toByte)
    (hl : ∀ i ∈ l, ∀ o : Op, o.toByte = i.op → o = .pcal ∨ pass3Jump o = true →
      (∃ v, findLabel labels i.arg2.toNat = some v) ∨
      o = .pcal ∧ findLabel labels i.arg2.toNat = none ∧
        ∃ v, findLabel undef i.arg2.toNat = some v)
    (fuel : Nat) (hf : l.length ≤ fuel) (pc : Nat) (out : List Byte) (rel : List Reloc) :
    pass3 labels undef fuel ⟨encode l, false⟩ pc out rel =
      .ok (some (out ++ encode (l.map (fin3 labels)), rel ++ gens labels undef l pc)) := by
  induction l generalizing fuel pc out rel with
  | nil => simp at hend
  | cons i l ih =>
    obtain ⟨fuel, rfl⟩ : ∃ f, fuel = f + 1 := ⟨fuel - 1, by simp at hf; omega⟩
    have hwi := hw i List.mem_cons_self
    obtain ⟨o, ho⟩ := hwi.known
    have h3 := pass3Op_eq labels undef i pc ho (hl i List.mem_cons_self o ho)
    rw [pass3, encode_cons, getOpCode_bytes hwi]
    simp only
    rw [h3]
    simp only [fin3_op, addOpCode]
    by_cases hnil : l = []
    · subst hnil
      have hop : i.op = Op.end_.toByte := by simpa using hend
      rw [if_neg (by simpa using hop)]
      simp [encode_cons, gens, show encode [] = [] from rfl]
    · obtain ⟨hne, hel⟩ := endsOnce_cons he hnil
      have hend' : l.getLast?.map (·.op) = some Op.end_.toByte := by
        rw [List.getLast?_cons_of_ne_nil hnil] at hend; exact hend
      rw [if_pos hne, show (i.op == Op.end_.toByte) = false by simpa using hne,
        ih (fun x hx => hw x (List.mem_cons_of_mem _ hx)) hel hend'
          (fun x hx => hl x (List.mem_cons_of_mem _ hx)) fuel (by simp at hf; omega)]
      simp [encode_cons, gens]

theorem mem_gens (labels undef : List (Nat × Nat)) (l : List OpType) (pc : Nat) (r : Reloc) :
    r ∈ gens labels undef l pc ↔ ∃ j i idx, l[j]? = some i ∧ imp3 labels undef i = some idx ∧
      r = ⟨idx, RLT_PCAL, pc + startOf l j⟩ := by
  induction l generalizing pc with
  | nil => simp [gens]
  | cons i l ih =>
    rw [gens, List.mem_append, ih]
    constructor
    · rintro (h | ⟨j, x, idx, h1, h2, h3⟩)
      · split at h
        · next idx e =>
          rw [List.mem_singleton] at h
          exact ⟨0, i, idx, rfl, e, by rw [h]; rfl⟩
        · simp at h
      · refine ⟨j + 1, x, idx, h1, h2, ?_⟩
        rw [h3, startOf, startOf, List.take_succ_cons, List.map_cons, List.sum_cons, Nat.add_assoc]
    · rintro ⟨j, x, idx, h1, h2, h3⟩
      cases j with
      | zero =>
        cases h1
        left
        rw [h2, h3]
        exact List.mem_singleton.mpr rfl
      | succ j =>
        refine .inr ⟨j, x, idx, h1, h2, ?_⟩
        rw [h3, startOf, startOf, List.take_succ_cons, List.map_cons, List.sum_cons, Nat.add_assoc]

theorem startOf_map (labels : List (Nat × Nat)) (l : List OpType) (j : Nat) :
    startOf (l.map (fin3 labels)) j = startOf l j := by
  rw [startOf, startOf, ← List.map_take, List.map_map]
  congr 1
  exact List.map_congr_left fun i _ => fin3_size labels i

theorem realOps_last {p : List OpType} (he : EndsOnce p)
    (hend : p.getLast?.map (·.op) = some Op.end_.toByte) :
    EndsOnce (realOps p) ∧ (realOps p).getLast?.map (·.op) = some Op.end_.toByte := by
  induction p with
  | nil => simp at hend
  | cons i l ih =>
    by_cases hl : l = []
    · subst hl
      have hop : i.op = Op.end_.toByte := by simpa using hend
      have hm : isMark i = false := isMark_false (by rw [hop]; decide) (by rw [hop]; decide)
      rw [realOps_real _ hm]
      exact ⟨by simp [EndsOnce, realOps], by simpa [realOps] using hop⟩
    · obtain ⟨hne, hel⟩ := endsOnce_cons he hl
      rw [List.getLast?_cons_of_ne_nil hl] at hend
      obtain ⟨h1, h2⟩ := ih hel hend
      cases hm : isMark i
      · rw [realOps_real _ hm]
        have hnil : realOps l ≠ [] := by intro e; rw [e] at h2; simp at h2
        refine ⟨fun x hx => ?_, by rw [List.getLast?_cons_of_ne_nil hnil]; exact h2⟩
        rw [List.dropLast_cons_of_ne_nil hnil] at hx
        rcases List.mem_cons.mp hx with rfl | hx
        · exact hne
        · exact h1 x hx
      · rw [realOps_mark _ hm]; exact ⟨h1, h2⟩

end Pas
