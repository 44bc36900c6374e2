import Verif.Model.RelocDump
import Verif.Spec.RelocDump
/-! # C91: the listing of relocations -/
namespace Pas.RelocDump
open Pas.Poff

private theorem digit_ok : ∀ n : Fin 16, digitVal (hexDigit n.val) = some n.val := by decide +kernel

private theorem digit {n : Nat} (h : n < 16) : digitVal (hexDigit n) = some n := digit_ok ⟨n, h⟩

private theorem hex8_ok (v : U32) : (hex8 v).length = 8 ∧ hexVal 0 (hex8 v) = some v.toNat := by
  refine ⟨rfl, ?_⟩
  have m : ∀ x : Nat, x % 16 < 16 := fun x => Nat.mod_lt x (by decide)
  simp only [hex8, hexVal, digit (m _)]
  have := v.isLt
  congr 1
  omega

private theorem rd_first (n : Nat) (h : n < 4294967296) (r : List Byte) : (rd32 (bytes4 n ++ r) 0).toNat = n := by
  simp only [rd32, bytes4, List.cons_append, List.nil_append, List.getD_cons_zero, List.getD_cons_succ, Nat.zero_add,
    BitVec.toNat_ofNat]
  omega

private theorem rd_second (a n : Nat) (h : n < 4294967296) (r : List Byte) :
    (rd32 (bytes4 a ++ (bytes4 n ++ r)) 4).toNat = n := by
  simp only [rd32, bytes4, List.cons_append, List.nil_append, List.getD_cons_zero, List.getD_cons_succ,
    BitVec.toNat_ofNat]
  omega

private theorem line_ok (e : Entry) (r : List Byte) : ∃ l, relocLine (e.bytes ++ r) = .ok l ∧ Shows e l := by
  obtain ⟨k, s, o⟩ := e
  have hk := k.isLt
  have hs := s.isLt
  have ho := o.isLt
  have h1 := rd_first (256 * s.val + k.val) (by omega) (bytes4 o.val ++ r)
  have h2 := rd_second (256 * s.val + k.val) o.val ho r
  have ht : (rd32 (bytes4 (256 * s.val + k.val) ++ (bytes4 o.val ++ r)) 0 &&& 0xff#32).toNat = k.val := by
    rw [BitVec.toNat_and, h1]
    have : (0xff#32).toNat = 2 ^ 8 - 1 := by decide
    rw [this, Nat.and_two_pow_sub_one_eq_mod]
    omega
  have hy : (rd32 (bytes4 (256 * s.val + k.val) ++ (bytes4 o.val ++ r)) 0 >>> 8).toNat = s.val := by
    rw [BitVec.toNat_ushiftRight, h1, Nat.shiftRight_eq_div_pow]
    omega
  unfold relocLine Entry.bytes
  rw [List.append_assoc, if_neg (by simp [bytes4])]
  simp only [ht]
  have hn : ∃ n, typeName k.val = .ok n ∧ pad6 n = kindText k := by
    match k with
    | 0 => exact ⟨_, rfl, by decide +kernel⟩
    | 1 => exact ⟨_, rfl, by decide +kernel⟩
    | 2 => exact ⟨_, rfl, by decide +kernel⟩
  obtain ⟨n, hn, hp⟩ := hn
  rw [hn, Res.ok_bind]
  refine ⟨_, rfl, hex8 (rd32 (bytes4 (256 * s.val + k.val) ++ (bytes4 o.val ++ r)) 0 >>> 8),
    hex8 (rd32 (bytes4 (256 * s.val + k.val) ++ (bytes4 o.val ++ r)) 4), (hex8_ok _).1, ?_, (hex8_ok _).1, ?_, ?_⟩
  · rw [(hex8_ok _).2, hy]
  · rw [(hex8_ok _).2, h2]
  · rw [hp]; rfl

private theorem bytes_drop (e : Entry) (r : List Byte) : (e.bytes ++ r).drop 8 = r := rfl

private theorem lines_ok (es : List Entry) :
    ∃ ls : List (List Byte), relocLines 8 (es.flatMap Entry.bytes) = .ok ls.flatten ∧ ShowsAll es ls := by
  induction es with
  | nil => exact ⟨[], by rw [relocLines]; rfl, .nil⟩
  | cons e es ih =>
    obtain ⟨ls, h1, h2⟩ := ih
    obtain ⟨l, h3, h4⟩ := line_ok e (es.flatMap Entry.bytes)
    refine ⟨l :: ls, ?_, .cons h4 h2⟩
    rw [List.flatMap_cons, relocLines, dif_neg (by simp [Entry.bytes, bytes4]), h3, Res.ok_bind, dif_neg (by decide),
      bytes_drop, h1, Res.ok_bind, List.flatten_cons]

/-- C91 (partial): for every table of relocations of known kinds, the listing consists of its head and one line for each
relocation, in order, that shows it; nothing outside of the table is read.  The same for the temporary table.  Missing:
tables with other kinds (`C91_violation_kind`) or another size of the entries (`C91_violation_size`). -/
theorem C91_relocations_partial (es : List Entry) :
    ∃ lines : List (List Byte), ShowsAll es lines ∧
      dumpRelocs 8 (es.flatMap Entry.bytes) =
        .ok (text "\nPOFF Relocation Table:\nRELO   SYMBOL     SECTION\nTYPE   TBL INDEX  DATA OFFSET\n" ++ lines.flatten) ∧
      dumpTmpRelocs (es.flatMap Entry.bytes) =
        .ok (text "\nTmp Relocation Buffer:\nRELO   SYMBOL     SECTION\nTYPE   TBL INDEX  DATA OFFSET\n" ++ lines.flatten) := by
  obtain ⟨ls, h1, h2⟩ := lines_ok es
  refine ⟨ls, h2, ?_, ?_⟩
  · unfold dumpRelocs
    rw [h1, Res.ok_bind]
    congr 2
  · unfold dumpTmpRelocs
    rw [h1, Res.ok_bind]
    congr 2

/-- A call of symbol 3 at 0x1f4. -/
example : dumpRelocs 8 ([⟨1, 3, 500⟩].flatMap Entry.bytes) =
    .ok (text "\nPOFF Relocation Table:\nRELO   SYMBOL     SECTION\nTYPE   TBL INDEX  DATA OFFSET\nPCAL   0x00000003 0x000001f4\n") := by
  decide +kernel

/-- Violation of C91: for a relocation of an unknown kind, wherever it is in the table, the array of names is read behind
its end. -/
theorem C91_violation_kind (es : List Entry) (k : Byte) (a b c : Byte) (rest : List Byte) (h : 3 ≤ k.toNat) :
    dumpRelocs 8 (es.flatMap Entry.bytes ++ k :: a :: b :: c :: rest) = .ub := by
  have key : relocLines 8 (es.flatMap Entry.bytes ++ k :: a :: b :: c :: rest) = .ub := by
    induction es with
    | nil =>
      rw [List.flatMap_nil, List.nil_append, relocLines, dif_neg (by simp)]
      have : relocLine (k :: a :: b :: c :: rest) = .ub := by
        unfold relocLine
        split
        · rfl
        · have ht : (rd32 (k :: a :: b :: c :: rest) 0 &&& 0xff#32).toNat = k.toNat := by
            have : (0xff#32).toNat = 2 ^ 8 - 1 := by decide
            rw [BitVec.toNat_and, this, Nat.and_two_pow_sub_one_eq_mod]
            simp only [rd32, List.getD_cons_zero, List.getD_cons_succ, Nat.zero_add, BitVec.toNat_ofNat]
            have := k.isLt
            omega
          simp only [ht]
          have : typeName k.toNat = .ub := by
            match hk : k.toNat, h with
            | n + 3, _ => rfl
          rw [this, Res.ub_bind]
      rw [this, Res.ub_bind]
    | cons e es ih =>
      obtain ⟨l, h3, -⟩ := line_ok e (es.flatMap Entry.bytes ++ k :: a :: b :: c :: rest)
      rw [List.flatMap_cons, List.append_assoc, relocLines, dif_neg (by simp [Entry.bytes, bytes4]), h3, Res.ok_bind,
        dif_neg (by decide), bytes_drop, ih, Res.ub_bind]
  unfold dumpRelocs
  rw [key, Res.ub_bind]

/-- There is such a table: a byte 7 as the kind. -/
example : 3 ≤ (7#8).toNat := by decide

/-- Violation of C91: the size of the entries is taken from the file, and with 0 the listing does not end. -/
theorem C91_violation_size (e : Entry) (es : List Entry) :
    dumpRelocs 0 ((e :: es).flatMap Entry.bytes) = .hang := by
  obtain ⟨l, h3, -⟩ := line_ok e (es.flatMap Entry.bytes)
  unfold dumpRelocs
  rw [List.flatMap_cons, relocLines, dif_neg (by simp [Entry.bytes, bytes4]), h3, Res.ok_bind, dif_pos rfl, Res.hang_bind]

end Pas.RelocDump
