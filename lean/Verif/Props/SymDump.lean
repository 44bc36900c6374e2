import Verif.Model.SymDump
import Verif.Spec.SymDump
/-! # C91: the listing of symbols -/
namespace Pas.SymDump
open Pas.Poff Pas.RelocDump

private theorem digit_ok : ∀ n : Fin 16, digitVal (hexDigit n.val) = some n.val := by decide +kernel

private theorem digit {n : Nat} (h : n < 16) : digitVal (hexDigit n) = some n := digit_ok ⟨n, h⟩

private theorem hex8_ok (v : U32) : (hex8 v).length = 8 ∧ hexVal 0 (hex8 v) = some v.toNat := by
  refine ⟨rfl, ?_⟩
  have m : ∀ x : Nat, x % 16 < 16 := fun x => Nat.mod_lt x (by decide)
  simp only [hex8, hexVal, digit (m _)]
  have := v.isLt
  congr 1
  omega

private theorem hex2_ok (v : Byte) : (hex2 v).length = 2 ∧ hexVal 0 (hex2 v) = some v.toNat := by
  refine ⟨rfl, ?_⟩
  have m : ∀ x : Nat, x % 16 < 16 := fun x => Nat.mod_lt x (by decide)
  simp only [hex2, hexVal, digit (m _)]
  have := v.isLt
  congr 1
  omega

private theorem cstr_name : ∀ (n b : List Byte), 0#8 ∉ n → cstr (n ++ 0#8 :: b) = .ok n := by
  intro n b
  induction n with
  | nil => intro _; rfl
  | cons c n ih =>
    intro h
    have hc : c ≠ 0#8 := fun e => h (by simp [e])
    rw [List.cons_append, cstr, if_neg hc, ih (fun e => h (by simp [e])), Res.ok_bind]

private theorem line_ok {strs name : List Byte} (s : Symbol) (h : NameIn strs s.nameAt.val name) (r : List Byte) :
    ∃ l, symLine (some strs) (s.bytes ++ r) = .ok l ∧ Shows strs s l := by
  obtain ⟨k, al, fl, pd, na, va, si⟩ := s
  have h' := h
  obtain ⟨hz, a, b, rfl, hp⟩ := h'
  have hna := na.isLt
  have hva := va.isLt
  have hsi := si.isLt
  have hk := k.isLt
  generalize hd : (Symbol.bytes ⟨k, al, fl, pd, na, va, si⟩ ++ r) = d
  have hlen : ¬ d.length < 16 := by rw [← hd]; simp [Symbol.bytes, bytes4]
  have e4 : (rd32 d 4).toNat = na.val := by
    rw [← hd]
    simp only [rd32, Symbol.bytes, bytes4, List.cons_append, List.nil_append, List.getD_cons_zero, List.getD_cons_succ,
      BitVec.toNat_ofNat]
    omega
  have e8 : (rd32 d 8).toNat = va.val := by
    rw [← hd]
    simp only [rd32, Symbol.bytes, bytes4, List.cons_append, List.nil_append, List.getD_cons_zero, List.getD_cons_succ,
      BitVec.toNat_ofNat]
    omega
  have e12 : (rd32 d 12).toNat = si.val := by
    rw [← hd]
    simp only [rd32, Symbol.bytes, bytes4, List.cons_append, List.nil_append, List.getD_cons_zero, List.getD_cons_succ,
      BitVec.toNat_ofNat]
    omega
  have e0 : (d.getD 0 0).toNat = k.val := by
    rw [← hd]
    simp only [Symbol.bytes, List.cons_append, List.getD_cons_zero, BitVec.toNat_ofNat]
    omega
  have e1 : d.getD 1 0 = al := by rw [← hd]; rfl
  have e2 : d.getD 2 0 = fl := by rw [← hd]; rfl
  have hg : getString (some (a ++ (name ++ 0#8 :: b))) na.val = .ok name := by
    have : na.val = a.length := hp.symm
    unfold getString
    simp only [this]
    rw [if_pos (by simp only [List.length_append, List.length_cons]; omega), List.drop_left, cstr_name name b hz]
  have hn : symTypeName k.val = .ok (kindText k) := by
    match k with
    | 0 => rfl
    | 1 => rfl
    | 2 => rfl
    | 3 => rfl
    | 4 => rfl
  unfold symLine
  rw [if_neg hlen, e4, hg, Res.ok_bind, e0, hn, Res.ok_bind, e1, e2]
  refine ⟨_, rfl, name, hex2 fl, hex2 al, hex8 (rd32 d 8), hex8 (rd32 d 12), h, (hex2_ok _).1, (hex2_ok _).2, (hex2_ok _).1,
    (hex2_ok _).2, (hex8_ok _).1, ?_, (hex8_ok _).1, ?_, rfl⟩
  · rw [(hex8_ok _).2, e8]
  · rw [(hex8_ok _).2, e12]

private theorem bytes_drop (s : Symbol) (r : List Byte) : (s.bytes ++ r).drop 16 = r := rfl

private theorem bytes_ne (s : Symbol) (r : List Byte) : s.bytes ++ r ≠ [] := by simp [Symbol.bytes]

private theorem lines_ok (strs : List Byte) (ss : List Symbol) (h : ∀ s ∈ ss, ∃ name, NameIn strs s.nameAt.val name) :
    ∃ ls : List (List Byte), symLines (some strs) 16 (ss.flatMap Symbol.bytes) = .ok ls.flatten ∧ ShowsAll strs ss ls := by
  induction ss with
  | nil => exact ⟨[], by rw [symLines]; rfl, .nil⟩
  | cons s ss ih =>
    obtain ⟨ls, h1, h2⟩ := ih (fun x hx => h x (by simp [hx]))
    obtain ⟨name, hn⟩ := h s (by simp)
    obtain ⟨l, h3, h4⟩ := line_ok s hn (ss.flatMap Symbol.bytes)
    refine ⟨l :: ls, ?_, .cons h4 h2⟩
    rw [List.flatMap_cons, symLines, dif_neg (bytes_ne _ _), h3, Res.ok_bind, dif_neg (by decide), bytes_drop, h1,
      Res.ok_bind, List.flatten_cons]

/-- C91 (partial): for every table of symbols of known kinds with their names in the table of strings, the listing
consists of its head and one line for each symbol, in order, that shows it; nothing outside of the tables is read.
Missing: tables with other kinds (`C91_violation_symbol_kind`), names that are not in the table, or another size of the
entries. -/
theorem C91_symbols_partial (strs : List Byte) (ss : List Symbol) (h : ∀ s ∈ ss, ∃ name, NameIn strs s.nameAt.val name) :
    ∃ lines : List (List Byte), ShowsAll strs ss lines ∧
      dumpSymbols (some strs) 16 (ss.flatMap Symbol.bytes) =
        .ok (text "\nPOFF Symbol Table:\nNAME                 TYPE   FLAG ALGN VALUE      SIZE\n" ++ lines.flatten) := by
  obtain ⟨ls, h1, h2⟩ := lines_ok strs ss h
  refine ⟨ls, h2, ?_⟩
  unfold dumpSymbols
  rw [h1, Res.ok_bind]
  congr 2

/-- A procedure with the name `p` and the value 18. -/
example : (∀ s ∈ [(⟨3, 0, 0, 0, 1, 18, 0⟩ : Symbol)], ∃ name, NameIn [0#8, 112#8, 0#8] s.nameAt.val name) ∧
    dumpSymbols (some [0#8, 112#8, 0#8]) 16 ([(⟨3, 0, 0, 0, 1, 18, 0⟩ : Symbol)].flatMap Symbol.bytes) =
      .ok (text "\nPOFF Symbol Table:\nNAME                 TYPE   FLAG ALGN VALUE      SIZE\np                    PROC   0x00 0x00 0x00000012 0x00000000\n") := by
  refine ⟨?_, by decide +kernel⟩
  intro s hs
  simp only [List.mem_singleton] at hs
  subst hs
  exact ⟨[112#8], by decide, [0#8], [], rfl, rfl⟩

/-- Violation of C91: for a symbol of an unknown kind at the beginning of the table, the array of names of kinds is read
behind its end, whatever the rest of the tables. -/
theorem C91_violation_symbol_kind (strs : List Byte) (k : Byte) (rest : List Byte) (h : 5 ≤ k.toNat)
    (hs : ∃ name, getString (some strs) (rd32 (k :: rest) 4).toNat = .ok name) :
    dumpSymbols (some strs) 16 (k :: rest) = .ub := by
  obtain ⟨name, hs⟩ := hs
  have : symLine (some strs) (k :: rest) = .ub := by
    unfold symLine
    split
    · rfl
    · have : symTypeName k.toNat = .ub := by
        match hk : k.toNat, h with
        | n + 5, _ => rfl
      rw [hs, Res.ok_bind, List.getD_cons_zero, this, Res.ub_bind]
  unfold dumpSymbols
  rw [symLines, dif_neg (by simp), this, Res.ub_bind, Res.ub_bind]

/-- There is such a table. -/
example : 5 ≤ (9#8).toNat ∧
    ∃ name, getString (some [0#8]) (rd32 (9#8 :: List.replicate 15 0#8) 4).toNat = .ok name :=
  ⟨by decide, [], by decide +kernel⟩

end Pas.SymDump
