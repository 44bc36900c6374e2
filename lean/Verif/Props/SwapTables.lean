import Verif.Props.ObjectFile
/-! C40 (tables): conversion of the symbol, relocation and line tables between memory and
file byte order. -/
namespace Pas.Props
open Pas.Poff Pas.Spec

/-- A symbol record in the file: big-endian fields. -/
def symFile (r : LibSymbol × U32) : List Byte :=
  [r.1.stype, r.1.align, r.1.flags, 0] ++ (be32 r.2 ++ (be32 r.1.value ++ be32 r.1.size))
/-- A relocation in the file. -/
def relFile (r : U32 × U32) : List Byte := be32 r.1 ++ be32 r.2
/-- A line number in the file. -/
def lineFile (r : Word × Word × U32) : List Byte := be16 r.1 ++ (be16 r.2.1 ++ be32 r.2.2)

theorem swap_table {α : Type} {fs ent E} (L : Layout fs ent E) (mem file : α → List Byte)
    (h1 : ∀ x, (mem x).length = ent) (h2 : ∀ x, E (mem x) = file x) (xs : List α) (alloc : Nat) :
    swapLoop alloc fs ent (xs.flatMap mem).length ((xs.flatMap mem).length + 1) 0 (xs.flatMap mem)
      = .ok (xs.flatMap file) ∧
    swapLoop alloc fs ent (xs.flatMap file).length ((xs.flatMap file).length + 1) 0 (xs.flatMap file)
      = .ok (xs.flatMap mem) := by
  have e1 : xs.flatMap mem = (xs.map mem).flatten := by simp [List.flatMap]
  have e2 : xs.flatMap file = ((xs.map mem).map E).flatten := by
    simp [List.flatMap, List.map_map, Function.comp_def, h2]
  have hm : ∀ e ∈ xs.map mem, e.length = ent := by
    intro e he; obtain ⟨x, _, rfl⟩ := List.mem_map.mp he; exact h1 x
  have hlen : (xs.flatMap mem).length = ent * xs.length := len_flatMap mem ent xs (fun x _ => h1 x)
  have hpos := L.pos
  have hle : xs.length ≤ ent * xs.length := Nat.le_mul_of_pos_left _ hpos
  have s1 : swapLoop alloc fs ent (xs.flatMap mem).length ((xs.flatMap mem).length + 1) 0 (xs.flatMap mem)
      = .ok (xs.flatMap file) := by
    have := swapLoop_spec L alloc (xs.map mem) [] (xs.flatMap mem).length ((xs.flatMap mem).length + 1) hm
      (by simp [e1]) (by rw [List.length_map]; omega)
    simp only [List.nil_append, List.length_nil, ← e1, ← e2] at this
    exact this
  refine ⟨s1, ?_⟩
  obtain ⟨d', t1, t2, t3⟩ := swapLoop_twice L (xs.flatMap mem) (by rw [hlen]; exact Nat.mul_mod_right _ _)
  have := t1 alloc
  rw [s1] at this
  injection this with this
  subst this
  rw [t2]
  exact t3 alloc

/-- Converting a symbol table of any length to file order stores every field most
significant byte first and leaves the byte fields alone; converting back gives the table
that was in memory. -/
theorem C40_symtab (xs : List (LibSymbol × U32)) (alloc : Nat) :
    let m := xs.flatMap (fun r => symImage r.1 r.2)
    let f := xs.flatMap symFile
    swapLoop alloc symFields 16 m.length (m.length + 1) 0 m = .ok f ∧
    swapLoop alloc symFields 16 f.length (f.length + 1) 0 f = .ok m :=
  swap_table symLayout _ _ (fun _ => symImage_length _ _) (fun r => by
    have h1 := symE_split (a := [r.1.stype, r.1.align, r.1.flags, 0]) (b := le32 r.2) (c := le32 r.1.value)
      (d := le32 r.1.size) rfl (by simp) (by simp)
    exact h1) xs alloc

/-- Converting a relocation table to file order and back. -/
theorem C40_reltab (xs : List (U32 × U32)) (alloc : Nat) :
    let m := xs.flatMap (fun r => le32 r.1 ++ le32 r.2)
    let f := xs.flatMap relFile
    swapLoop alloc relFields 8 m.length (m.length + 1) 0 m = .ok f ∧
    swapLoop alloc relFields 8 f.length (f.length + 1) 0 f = .ok m :=
  swap_table relLayout _ _ (fun _ => by simp) (fun r => relE_split (by simp)) xs alloc

/-- Converting a line number table to file order and back. -/
theorem C40_linetab (xs : List (Word × Word × U32)) (alloc : Nat) :
    let m := xs.flatMap (fun r => le16 r.1 ++ (le16 r.2.1 ++ le32 r.2.2))
    let f := xs.flatMap lineFile
    swapLoop alloc lineFields 8 m.length (m.length + 1) 0 m = .ok f ∧
    swapLoop alloc lineFields 8 f.length (f.length + 1) 0 f = .ok m :=
  swap_table lineLayout _ _ (fun _ => by simp) (fun r => lineE_split (by simp) (by simp)) xs alloc

example : swapLoop 16 relFields 8 16 17 0 ([(0x101#32, 2#32), (0x203, 0x1000)].flatMap fun r => le32 r.1 ++ le32 r.2)
    = .ok [0, 0, 1, 1, 0, 0, 0, 2, 0, 0, 2, 3, 0, 0, 0x10, 0] := by decide

/-- File and section headers converted to file order and back are unchanged. -/
theorem C40_headers (h : FileHdr) (s : SecHdr) : h.swap.swap = h ∧ s.swap.swap = s :=
  ⟨h.swap_swap, s.swap_swap⟩

/-- Violation of C40: a file-name table of `n ≥ 2` names in a block of exactly its size
cannot be converted. -/
theorem C40_violation_filetab (xs : List U32) (h : 2 ≤ xs.length) :
    let m := xs.flatMap le32
    swapFileLoop m.length 4 m.length (m.length + 1) 0 m ≠ .ok (xs.flatMap be32) ∧
    ∀ r, swapFileLoop m.length 4 m.length (m.length + 1) 0 m ≠ .ok r := by
  have hl : (xs.flatMap le32).length = 4 * xs.length := len_flatMap _ 4 _ (fun _ _ => by simp)
  have : ∀ r, swapFileLoop (xs.flatMap le32).length 4 (xs.flatMap le32).length
      ((xs.flatMap le32).length + 1) 0 (xs.flatMap le32) ≠ .ok r := fun r hr =>
    swapFile_grow _ (by omega) _ _ _ rfl (by omega) hr
  exact ⟨this _, this⟩

example : 2 ≤ [1#32, 5#32].length := by decide

theorem swapArgs_ub {alloc : Nat} : ∀ (n i : Nat) (d : List Byte), alloc < i + 4 * n → d.length ≤ alloc → 0 < n →
    swapArgs alloc n i d = .ub := by
  intro n
  induction n with
  | zero => intro i d _ _ h; omega
  | succ n ih =>
    intro i d h1 h2 _
    rw [swapArgs]
    cases hs : swapField alloc d i true with
    | ub => rfl
    | hang =>
      simp only [swapField, if_true] at hs
      split at hs
      · cases hs
      · split at hs <;> cases hs
    | ok d' =>
      have hd : d'.length = d.length ∧ i + 4 ≤ alloc := by
        simp only [swapField, if_true] at hs
        split at hs
        · next hc =>
          injection hs with hs; subst hs
          refine ⟨?_, by omega⟩
          simp; omega
        · split at hs
          · next hc => injection hs with hs; subst hs; exact ⟨rfl, hc.2⟩
          · cases hs
      simp only [Res.ok_bind]
      exact ih _ _ (by omega) (by omega) (by omega)

/-- Violation of C40: once there are two relocations, converting a debug table whose first
record has between 1 and 255 parameters leaves the buffer (for buffers below 64 MB): the
parameter count is read after it has been swapped. -/
theorem C40_violation_debug (r : DebugFunc) (rest : List Byte) (alloc relsize : Nat)
    (h1 : 0 < r.args.length) (h2 : r.args.length < 256) (ha : alloc < 2 ^ 26)
    (hl : (debugImage r ++ rest).length ≤ alloc) (hr : 12 < relsize) :
    swapDebugLoop alloc relsize (relsize + 1) 0 (debugImage r ++ rest) = .ub := by
  unfold swapDebugLoop
  rw [if_pos (by omega)]
  generalize hc : BitVec.ofNat 32 r.args.length = cnt
  generalize ht : r.args.flatMap le32 ++ rest = tail
  have e : debugImage r ++ rest = le32 r.value ++ (le32 r.retsize ++ (le32 cnt ++ tail)) := by
    rw [debugImage, hc, ← ht]; simp
  have s1 := swapField_wide alloc [] (le32 r.value) (le32 r.retsize ++ (le32 cnt ++ tail)) 0 rfl (by simp)
  have s2 := swapField_wide alloc (be32 r.value) (le32 r.retsize) (le32 cnt ++ tail) 4 rfl (by simp)
  have s3 := swapField_wide alloc (be32 r.value ++ be32 r.retsize) (le32 cnt) tail 8 rfl (by simp)
  simp only [List.nil_append, le32_reverse, List.append_assoc] at s1 s2 s3
  have hs : swapRec alloc dbgFields 0 (debugImage r ++ rest) = .ok (be32 r.value ++ (be32 r.retsize ++ (be32 cnt ++ tail))) := by
    rw [e]
    simp only [dbgFields, swapRec, Nat.zero_add, s1, s2, s3, Res.ok_bind]
  have hlen : (be32 r.value ++ (be32 r.retsize ++ (be32 cnt ++ tail))).length = (debugImage r ++ rest).length := by
    rw [e]; simp only [List.length_append, le32_length]; simp [be32]
  have h12 : 0 + 12 ≤ (be32 r.value ++ (be32 r.retsize ++ (be32 cnt ++ tail))).length := by simp [be32]
  rw [hs]
  simp only [Res.ok_bind]
  rw [if_pos h12]
  have hn : (rd32 (be32 r.value ++ (be32 r.retsize ++ (be32 cnt ++ tail))) (0 + 8)).toNat = r.args.length * 2 ^ 24 := by
    have : be32 r.value ++ (be32 r.retsize ++ (be32 cnt ++ tail)) = (be32 r.value ++ be32 r.retsize) ++ (le32 (swap32 cnt) ++ tail) := by
      rw [le32_swap]; simp
    rw [this, rd32_le32 _ _ _ _ (by simp [be32])]
    have hq : le32 (swap32 cnt) = le32 (BitVec.ofNat 32 (r.args.length * 2 ^ 24)) := by
      rw [le32_swap, ← hc]
      have h3 : ∀ n : Nat, n < 256 → be32 (BitVec.ofNat 32 n) = le32 (BitVec.ofNat 32 (n * 2 ^ 24)) := by
        decide +kernel
      exact h3 _ h2
    rw [le32_inj hq]
    simp; omega
  rw [hn]
  rw [swapArgs_ub _ _ _ (by omega) (by rw [hlen]; exact hl) (by omega)]
  rfl

example : (debugImage ⟨5, 2, [2]⟩ ++ []).length ≤ 1536 := by decide

end Pas.Props
