import Verif.Model.SysIo
import Verif.Spec.Files
import Verif.Lemmas.Strings

/-! Helper lemmas about decimal notation and the file table. -/
namespace Pas.SysIo
open Pas.Spec

def val (l : List Byte) (v : Nat) : Nat := l.foldl (fun v b => 10 * v + (b.toNat - 48)) v

theorem digit_toNat {n : Nat} (h : n < 10) : (BitVec.ofNat 8 (48 + n)).toNat = 48 + n := by
  rw [BitVec.toNat_ofNat, Nat.mod_eq_of_lt (by omega)]

theorem digits_ok (fuel : Nat) : ∀ n, n < 10 ^ fuel → 0 < fuel →
    (∀ b ∈ digits fuel n, 48 ≤ b.toNat ∧ b.toNat ≤ 57) ∧ digits fuel n ≠ [] ∧
      ((digits fuel n).head? = some 48#8 → n = 0) ∧ val (digits fuel n) 0 = n := by
  induction fuel with
  | zero => intro n _ h; omega
  | succ fuel ih =>
    intro n hn _
    unfold digits
    split
    · rename_i hlt
      have hd := digit_toNat hlt
      refine ⟨?_, by simp, ?_, ?_⟩
      · intro b hb
        rw [List.mem_singleton] at hb
        subst hb
        omega
      · intro h
        simp only [List.head?_cons, Option.some.injEq] at h
        rw [h] at hd
        have : (48#8).toNat = 48 := rfl
        omega
      · simp only [val, List.foldl_cons, List.foldl_nil, hd]
        omega
    · rename_i hge
      have hf : 0 < fuel := by
        rcases Nat.eq_zero_or_pos fuel with h | h
        · subst h; simp at hn; omega
        · exact h
      have hq : n / 10 < 10 ^ fuel := by
        rw [Nat.pow_succ] at hn
        omega
      obtain ⟨h1, h2, h3, h4⟩ := ih (n / 10) hq hf
      have hd := digit_toNat (n := n % 10) (by omega)
      refine ⟨?_, by simp, ?_, ?_⟩
      · intro b hb
        rw [List.mem_append, List.mem_singleton] at hb
        rcases hb with hb | hb
        · exact h1 b hb
        · subst hb; omega
      · intro h
        rw [List.head?_append] at h
        have h : (digits fuel (n / 10)).head? = some 48#8 := by
          cases hh : (digits fuel (n / 10)).head? with
          | none => exact absurd (List.head?_eq_none_iff.mp hh) h2
          | some x => rw [hh] at h; exact h
        have := h3 h
        omega
      · rw [val, List.foldl_append]
        rw [val] at h4
        rw [h4]
        simp only [List.foldl_cons, List.foldl_nil, hd]
        omega

theorem decimal_fmtU {n : Nat} (h : n < 4294967296) : Decimal (fmtU n) n := by
  obtain ⟨h1, h2, h3, h4⟩ := digits_ok 10 n (by omega) (by decide)
  refine ⟨h1, h2, fun h0 => ?_, h4⟩
  have : n = 0 := h3 h0
  subst this
  rfl

theorem decimalInt_fmtD {i : Int} (h1 : -4294967296 < i) (h2 : i < 4294967296) : DecimalInt (fmtD i) i := by
  unfold fmtD
  split
  · exact .inr ⟨i.natAbs, _, by omega, by omega, rfl, decimal_fmtU (by omega)⟩
  · exact .inl ⟨i.natAbs, by omega, decimal_fmtU (by omega)⟩

theorem justified_pad (w : Nat) (l : List Byte) : Justified w l (pad w l) := by
  refine ⟨w - l.length, rfl, ?_⟩
  simp only [pad, List.length_append, List.length_replicate]
  omega

theorem width_eq (w : Word) : width w = w.toNat / 256 := by
  unfold width
  rw [BitVec.toNat_ushiftRight, Nat.shiftRight_eq_div_pow]

theorem justified_width (w : Word) (l : List Byte) : Justified (w.toNat / 256) l (pad (width w) l) := by
  rw [width_eq]
  exact justified_pad _ _

/-! ### Files -/

theorem overwritten (old : List Byte) (pos : Nat) (bs : List Byte) : Overwritten old pos bs (writeAt old pos bs) := by
  unfold writeAt
  split
  · rename_i h
    subst h
    exact ⟨fun i h => absurd h (by simp), fun _ _ _ => rfl, fun h => absurd rfl h, fun _ _ => rfl⟩
  · constructor
    · intro i hi
      have e : (old.take pos ++ List.replicate (pos - old.length) 0#8).length = pos := by simp; omega
      rw [List.append_assoc, List.getElem?_append_right (by rw [e]; omega), e, Nat.add_sub_cancel_left,
        List.getElem?_append_left hi, List.getElem?_eq_getElem hi]
    · intro i hi ho
      have : i < (old.take pos).length := by simp; omega
      rw [List.append_assoc, List.append_assoc, List.getElem?_append_left this, List.getElem?_take_of_lt hi]
    · intro _ i hi ho
      have e : (old.take pos).length = old.length := by simp; omega
      rw [List.append_assoc, List.append_assoc, List.getElem?_append_right (by omega), e,
        List.getElem?_append_left (by simp; omega), List.getElem?_replicate_of_lt (by omega)]
    · intro i hi
      have e : (old.take pos ++ List.replicate (pos - old.length) 0#8 ++ bs).length = pos + bs.length := by simp; omega
      rw [List.getElem?_append_right (by omega), e, List.getElem?_drop]
      congr 1
      omega

theorem entry_setEntry (s : VM) (n i : Nat) (e : FileEntry) :
    (setEntry s n e).io.table i = if i = n then e else s.io.table i := rfl

/-- Writing through an open file number. -/
theorem writeText_ok {s : VM} {n : Word} {f : HostFile} {pos : Nat} (h : OpenOut s n f pos) (bs : List Byte) :
    ∃ io, writeText s n.toNat bs = (eNOERROR, { s with io := io }) ∧
      Overwritten (fileText s f) pos bs (fileText { s with io := io } f) ∧
      (∀ g, g ≠ f → io.files g = s.io.files g) ∧ (∀ i, i ≠ n.toNat → io.table i = s.io.table i) ∧
      io.table n.toNat = { s.io.table n.toNat with stream := (io.table n.toNat).stream } ∧
      OpenOut { s with io := io } n f (pos + bs.length) := by
  obtain ⟨t, ht, hf, hm⟩ := h.isOpen
  have hw : writeError s n.toNat = eNOERROR := by
    unfold writeError
    have := h.number
    rw [if_neg (by unfold maxFiles; omega), if_neg]
    rintro (h1 | ⟨h1, h2⟩)
    · have h1 : (s.io.table n.toNat).stream = none := h1
      rw [ht] at h1; cases h1
    · have h1 : ¬ (s.io.table n.toNat).openMode = .write := h1
      have h2 : ¬ (s.io.table n.toNat).openMode = .append := h2
      rcases hm with ⟨h3, _⟩ | ⟨h3, _⟩
      · exact h2 h3
      · exact h1 h3
  have hp : (if (entry s n.toNat).openMode = .append ∨ seekable t = false then (content s t.file).length else t.pos) = pos := by
    rcases hm with ⟨h3, h4⟩ | ⟨h3, h4⟩
    · rw [if_pos (show (entry s n.toNat).openMode = .append ∨ seekable t = false from Or.inl h3), h4, hf]; rfl
    · have h5 : (entry s n.toNat).openMode ≠ .append := by
        show (s.io.table n.toNat).openMode ≠ .append
        rw [h3]; decide
      cases f with
      | named x => rw [if_neg (by rintro (h | h); exact h5 h; simp [seekable, hf] at h), h4]
      | stdin => rw [if_pos (Or.inr (by simp [seekable, hf])), h4, hf]; rfl
      | stdout => rw [if_pos (Or.inr (by simp [seekable, hf])), h4, hf]; rfl
  unfold writeText
  rw [if_pos hw]
  have hput : put s n.toNat bs = setEntry (setFile s t.file (writeAt (content s t.file) pos bs)) n.toNat
      { entry (setFile s t.file (writeAt (content s t.file) pos bs)) n.toNat with
        stream := some { t with pos := pos + bs.length } } := by
    unfold put
    have ht : (entry s n.toNat).stream = some t := ht
    rw [ht]
    dsimp only
    rw [hp]
  rw [hput]
  have htext : fileText (setEntry (setFile s t.file (writeAt (content s t.file) pos bs)) n.toNat
      { entry (setFile s t.file (writeAt (content s t.file) pos bs)) n.toNat with
        stream := some { t with pos := pos + bs.length } }) f = writeAt (fileText s f) pos bs := by
    subst hf
    simp [fileText, setEntry, setFile, content]
  refine ⟨_, rfl, ?_, ?_, ?_, ?_, ?_⟩
  · exact htext ▸ overwritten _ _ _
  · intro g hg
    subst hf
    show (if g = t.file then _ else _) = _
    rw [if_neg hg]
  · intro i hi
    show (if i = n.toNat then _ else _) = _
    rw [if_neg hi]
    rfl
  · simp [setEntry, setFile, entry]
  · refine ⟨h.number, { t with pos := pos + bs.length }, ?_, hf, ?_⟩
    · show (if n.toNat = n.toNat then _ else _ : FileEntry).stream = _
      rw [if_pos rfl]
    · have hmode : ((setEntry (setFile s t.file (writeAt (content s t.file) pos bs)) n.toNat
          { entry (setFile s t.file (writeAt (content s t.file) pos bs)) n.toNat with
            stream := some { t with pos := pos + bs.length } }).io.table n.toNat).openMode =
          (s.io.table n.toNat).openMode := by
        show (if n.toNat = n.toNat then _ else _ : FileEntry).openMode = _
        rw [if_pos rfl]
        rfl
      have hlen : pos = (fileText s f).length → pos + bs.length = (writeAt (fileText s f) pos bs).length := by
        intro h
        unfold writeAt
        split
        · rename_i hb; subst hb; simpa using h
        · simp [h]
      rcases hm with ⟨h3, h4⟩ | ⟨h3, h4⟩
      · left
        refine ⟨hmode.trans h3, ?_⟩
        exact (hlen h4).trans (congrArg List.length htext.symm)
      · right
        refine ⟨hmode.trans h3, ?_⟩
        cases f with
        | named x =>
          show pos + bs.length = pos + bs.length
          rfl
        | stdin => exact (hlen h4).trans (congrArg List.length htext.symm)
        | stdout => exact (hlen h4).trans (congrArg List.length htext.symm)

theorem writeText_refused {s : VM} {n : Word} (bs : List Byte) (h : writeError s n.toNat ≠ eNOERROR) :
    writeText s n.toNat bs = (writeError s n.toNat, s) := by
  unfold writeText
  rw [if_neg h]

end Pas.SysIo

namespace Pas.SysIo
open Pas.Spec

/-! ### Decimal notation is unique -/

theorem val_ge (l : List Byte) : ∀ v, v ≤ val l v := by
  induction l with
  | nil => intro v; exact Nat.le_refl _
  | cons b l ih =>
    intro v
    show v ≤ val l (10 * v + (b.toNat - 48))
    have := ih (10 * v + (b.toNat - 48))
    omega

theorem digits_val (k : Nat) : ∀ (l : List Byte) (fuel : Nat), l.length = k → l.length ≤ fuel →
    (∀ b ∈ l, 48 ≤ b.toNat ∧ b.toNat ≤ 57) → l ≠ [] → (l.head? = some 48#8 → l.length = 1) →
    digits fuel (val l 0) = l := by
  induction k with
  | zero => intro l fuel h _ _ h2; exact absurd (List.length_eq_zero_iff.mp h) h2
  | succ k ih =>
    intro l fuel hk hf hd hne hh
    obtain ⟨m, b, rfl⟩ : ∃ m b, l = m ++ [b] :=
      ⟨l.dropLast, l.getLast hne, (List.dropLast_concat_getLast hne).symm⟩
    have hlen : m.length = k := by simpa using hk
    have hlen' : (m ++ [b]).length = k + 1 := hk
    obtain ⟨fuel, rfl⟩ : ∃ f, fuel = f + 1 := ⟨fuel - 1, by omega⟩
    have hbd := hd b (by simp)
    have hb8 : BitVec.ofNat 8 (48 + (b.toNat - 48)) = b := by
      rw [show 48 + (b.toNat - 48) = b.toNat by omega, BitVec.ofNat_toNat, BitVec.setWidth_eq]
    rcases m with _ | ⟨c, m⟩
    · rw [List.nil_append]
      show digits (fuel + 1) (10 * 0 + (b.toNat - 48)) = [b]
      rw [digits, if_pos (by omega), Nat.mul_zero, Nat.zero_add, hb8]
    · have hc := hd c (by simp)
      have hc0 : c.toNat ≠ 48 := by
        intro h
        have : c = 48#8 := BitVec.eq_of_toNat_eq h
        have := hh (by simp [this])
        simp at this
      have hv : 1 ≤ val (c :: m) 0 := by
        show 1 ≤ val m (10 * 0 + (c.toNat - 48))
        have := val_ge m (10 * 0 + (c.toNat - 48))
        omega
      have e : val (c :: m ++ [b]) 0 = 10 * val (c :: m) 0 + (b.toNat - 48) := by
        simp only [val, List.foldl_append, List.foldl_cons, List.foldl_nil]
      rw [e, digits, if_neg (by omega), show (10 * val (c :: m) 0 + (b.toNat - 48)) / 10 = val (c :: m) 0 by omega,
        show (10 * val (c :: m) 0 + (b.toNat - 48)) % 10 = b.toNat - 48 by omega, hb8,
        ih (c :: m) fuel hlen (by omega) (fun x hx => hd x (List.mem_append_left _ hx)) (by simp) (fun h => ?_)]
      simp only [List.head?_cons, Option.some.injEq] at h
      exact absurd (by rw [h]; rfl) hc0

theorem decimal_unique {l l' : List Byte} {n : Nat} (h : Decimal l n) (h' : Decimal l' n) : l = l' := by
  have e := digits_val _ l (l.length + l'.length) rfl (by omega) h.digits h.nonempty h.short
  have e' := digits_val _ l' (l.length + l'.length) rfl (by omega) h'.digits h'.nonempty h'.short
  have hv : val l 0 = n := h.value
  have hv' : val l' 0 = n := h'.value
  rw [hv] at e
  rw [hv'] at e'
  exact e.symm.trans e'

theorem decimalInt_unique {l l' : List Byte} {i : Int} (h : DecimalInt l i) (h' : DecimalInt l' i) : l = l' := by
  rcases h with ⟨n, e, h⟩ | ⟨n, r, h0, e, rfl, h⟩ <;> rcases h' with ⟨n', e', h'⟩ | ⟨n', r', h0', e', rfl, h'⟩
  · obtain rfl : n = n' := by omega
    exact decimal_unique h h'
  · omega
  · omega
  · obtain rfl : n = n' := by omega
    rw [decimal_unique h h']

theorem digits_length : ∀ fuel n, (digits fuel n).length ≤ fuel
  | 0, _ => Nat.le_refl 0
  | fuel + 1, n => by
    unfold digits
    split
    · simp
    · have := digits_length fuel (n / 10)
      simp
      omega

theorem fmtD_length (i : Int) : (fmtD i).length ≤ 12 := by
  have := digits_length 10 i.natAbs
  unfold fmtD fmtU
  split
  · simp; omega
  · omega

end Pas.SysIo
