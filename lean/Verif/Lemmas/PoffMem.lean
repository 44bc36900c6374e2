import Verif.Spec.PoffMem

namespace Pas.PoffMem

open Pas.PoffMem.Spec

theorem growTo_need (inc need a : Nat) (h : 0 < inc) : need ≤ growTo inc need a := by
  fun_induction growTo inc need a with
  | case1 a h' => omega
  | case2 a h' ih => exact ih

theorem growTo_le (inc need a B : Nat) (h : a ≤ B) (hB : need + inc ≤ B) :
    growTo inc need a ≤ B := by
  fun_induction growTo inc need a with
  | case1 a h' => exact h
  | case2 a h' ih => apply ih; omega

theorem growTo_ge (inc need a : Nat) : a ≤ growTo inc need a := by
  fun_induction growTo inc need a with
  | case1 a h' => omega
  | case2 a h' ih => omega

theorem growTo_even (inc need a : Nat) (hi : inc % 2 = 0) (ha : a % 2 = 0) :
    growTo inc need a % 2 = 0 := by
  fun_induction growTo inc need a with
  | case1 a h' => exact ha
  | case2 a h' ih => apply ih; omega

/-- The bytes in use and the bytes recorded are inside the block. -/
structure Fit (b : Buf) (m : List Byte) : Prop where
  block : b.block = some m
  size : b.size ≤ m.length
  alloc : b.alloc ≤ m.length

theorem Fit.contents {b : Buf} {m : List Byte} (h : Fit b m) : b.contents = m.take b.size := by
  simp [Buf.contents, h.block]

theorem realloc_length (junk : Nat → Byte) (m : List Byte) (n : Nat) :
    (realloc junk m n).length = n := by simp [realloc]

theorem realloc_take (junk : Nat → Byte) (m : List Byte) (n k : Nat) (h : k ≤ n) (hk : k ≤ m.length) :
    (realloc junk m n).take k = m.take k := by
  simp only [realloc, List.take_take, Nat.min_eq_left h]
  rw [List.take_append_of_le_length hk]

/-- Room is made, and what is there stays. -/
theorem room_ok (junk : Nat → Byte) (k : Kind) (len : Nat) (b : Buf) (m : List Byte)
    (h : Fit b m) (hi : 0 < k.inc) (hg : k.loop = true ∨ b.size + len ≤ b.alloc + k.inc)
    (hb : b.size + len + k.inc < 2 ^ 32) :
    ∃ b' m', b.room junk k len = .ok b' ∧ Fit b' m' ∧ b'.size = b.size ∧ b'.index = b.index ∧
      b.size + len ≤ b'.alloc ∧ m'.take b.size = m.take b.size ∧
      (k.inc % 2 = 0 → b.alloc % 2 = 0 → b'.alloc % 2 = 0) := by
  unfold Buf.room
  by_cases hc : b.size + len > b.alloc
  · rw [if_pos hc]
    generalize hn : (if k.loop = true then growTo k.inc (b.size + len) (b.alloc + k.inc)
      else b.alloc + k.inc) = n
    have h1 : b.size + len ≤ n := by
      rw [← hn]; split
      · exact growTo_need _ _ _ hi
      · rename_i hl; rcases hg with hg | hg
        · exact absurd hg hl
        · exact hg
    have h2 : n < 2 ^ 32 := by
      rw [← hn]; split
      · have := growTo_le k.inc (b.size + len) (b.alloc + k.inc) (b.size + len + k.inc) (by omega) (by omega)
        omega
      · omega
    have h3 : k.inc % 2 = 0 → b.alloc % 2 = 0 → n % 2 = 0 := by
      intro x y; rw [← hn]; split
      · exact growTo_even _ _ _ x (by omega)
      · omega
    simp only []
    rw [if_neg (by omega)]
    refine ⟨_, realloc junk m n, rfl, ⟨by simp [h.block], ?_, ?_⟩, rfl, rfl, h1, ?_, h3⟩
    · simp only [realloc_length]; omega
    · simp only [realloc_length]; omega
    · exact realloc_take _ _ _ _ (by omega) h.size
  · rw [if_neg hc]
    exact ⟨b, m, rfl, h, rfl, rfl, by omega, rfl, fun _ h => h⟩

theorem store_ok (b : Buf) (m : List Byte) (h : b.block = some m) (i : Nat) (d : List Byte)
    (hi : i + d.length ≤ m.length) :
    b.store i d = .ok { b with block := some (m.take i ++ d ++ m.drop (i + d.length)) } := by
  simp [Buf.store, h, hi]

theorem store_ub (b : Buf) (m : List Byte) (h : b.block = some m) (i : Nat) (d : List Byte)
    (hi : m.length < i + d.length) : b.store i d = .ub := by
  simp [Buf.store, h]; omega

theorem stored_length (m d : List Byte) (i : Nat) (hi : i + d.length ≤ m.length) :
    (m.take i ++ d ++ m.drop (i + d.length)).length = m.length := by
  simp; omega

theorem stored_take (m d : List Byte) (i : Nat) (hi : i + d.length ≤ m.length) :
    (m.take i ++ d ++ m.drop (i + d.length)).take (i + d.length) = m.take i ++ d := by
  rw [List.take_append_of_le_length (by simp; omega)]
  apply List.take_of_length_le
  simp; omega

theorem check_new (junk : Nat → Byte) (k : Kind) (b : Buf) (h : b.block = none)
    (hr : k.recorded ≤ k.initial) :
    Fit (b.check junk k) (malloc junk k.initial) ∧ (b.check junk k).size = 0 ∧
      (b.check junk k).alloc = k.recorded ∧ (b.check junk k).index = b.index := by
  simp only [Buf.check, h]
  exact ⟨⟨rfl, by simp, by simp [malloc, hr]⟩, by simp⟩

theorem check_some (junk : Nat → Byte) (k : Kind) (b : Buf) (m : List Byte) (h : b.block = some m) :
    b.check junk k = b := by simp [Buf.check, h]

/-- The states of a table that was not read from a file. -/
inductive Own (k : Kind) : Buf → Prop
  | none (b : Buf) (h : b.block = none) (hs : b.size = 0) : Own k b
  | some (b : Buf) (m : List Byte) (h : Fit b m) (hs : b.size ≤ b.alloc) : Own k b

theorem Own.check {k : Kind} {b : Buf} (junk : Nat → Byte) (h : Own k b) (hr : k.recorded ≤ k.initial) :
    ∃ m, Fit (b.check junk k) m ∧ (b.check junk k).size = b.size ∧
      (b.check junk k).size ≤ (b.check junk k).alloc ∧ (b.check junk k).index = b.index ∧
      (b.check junk k).contents = b.contents := by
  cases h with
  | none h hs =>
    have h1 := check_new junk k b h hr
    refine ⟨_, h1.1, by rw [h1.2.1, hs], by rw [h1.2.1]; omega, h1.2.2.2, ?_⟩
    rw [h1.1.contents, h1.2.1]; simp [Buf.contents, hs]
  | some m h hs =>
    rw [check_some junk k b m h.block]
    exact ⟨m, h, rfl, hs, rfl, rfl⟩

/-- The kinds whose tables can take data of length `len`. -/
structure Takes (k : Kind) (len : Nat) : Prop where
  recorded : k.recorded ≤ k.initial
  inc : 0 < k.inc
  fits : k.loop = true ∨ len ≤ k.inc

/-- Data added to memory. -/
theorem add_fit (junk : Nat → Byte) (k : Kind) (d : List Byte) (b : Buf) (m : List Byte)
    (h : Fit b m) (hi : 0 < k.inc)
    (hg : k.loop = true ∨ b.size + d.length ≤ b.alloc + k.inc)
    (hb : b.size + d.length + k.inc < 2 ^ 32) :
    ∃ b', b.add junk k d.length d d.length = .ok (b.size, b') ∧ Own k b' ∧
      b'.size = b.size + d.length ∧ b'.index = b.index ∧ b'.contents = b.contents ++ d := by
  obtain ⟨c, m', hc, hf, hs, hx, hal, ht, -⟩ := room_ok junk k d.length b m h hi hg hb
  have hl : c.size + d.length ≤ m'.length := by have := hf.alloc; omega
  unfold Buf.add
  rw [check_some junk k b m h.block, hc]
  simp only [Res.ok_bind]
  rw [store_ok c m' hf.block c.size d hl]
  simp only [Res.ok_bind]
  rw [← hs]
  refine ⟨_, rfl, ?_, rfl, hx, ?_⟩
  · refine .some _ (m'.take c.size ++ d ++ m'.drop (c.size + d.length)) ⟨rfl, ?_, ?_⟩ ?_
    · rw [stored_length _ _ _ hl]; exact hl
    · rw [stored_length _ _ _ hl]; exact hf.alloc
    · simp only; omega
  · simp only [Buf.contents, Option.getD_some]
    rw [stored_take _ _ _ hl, hs, ht, h.block, Option.getD_some]

theorem add_own (junk : Nat → Byte) (k : Kind) (d : List Byte) (b : Buf) (h : Own k b)
    (ht : Takes k d.length) (hb : b.size + d.length + k.inc < 2 ^ 32) :
    ∃ b', b.add junk k d.length d d.length = .ok (b.size, b') ∧ Own k b' ∧
      b'.size = b.size + d.length ∧ b'.index = b.index ∧ b'.contents = b.contents ++ d := by
  obtain ⟨m, hf, hs, hsa, hx, hc⟩ := h.check junk ht.recorded
  have hg : k.loop = true ∨
      (b.check junk k).size + d.length ≤ (b.check junk k).alloc + k.inc := by
    rcases ht.fits with hl | hl
    · exact .inl hl
    · exact .inr (by omega)
  obtain ⟨b', h1, h2, h3, h4, h5⟩ := add_fit junk k d (b.check junk k) m hf ht.inc hg (by omega)
  refine ⟨b', ?_, h2, by omega, by rw [h4, hx], by rw [h5, hc]⟩
  rw [← hs, ← h1]
  unfold Buf.add
  rw [check_some junk k _ m hf.block]

/-- Histories of additions to a table that was not read from a file. -/
theorem addAll_own (f : List Byte → Buf → Res (Nat × Buf)) (k : Kind) (P : List Byte → Prop)
    (pos : Nat → Nat)
    (hf : ∀ e b, P e → Own k b → b.size + e.length + k.inc < 2 ^ 32 →
      ∃ b', f e b = .ok (pos b.size, b') ∧ Own k b' ∧ b'.size = b.size + e.length ∧
        b'.index = b.index ∧ b'.contents = b.contents ++ e) :
    ∀ (es : List (List Byte)) (b : Buf), (∀ e ∈ es, P e) → Own k b →
      b.size + es.flatten.length + k.inc < 2 ^ 32 →
      ∃ b' offs, addAll f es b = .ok (offs, b') ∧ Own k b' ∧ b'.index = b.index ∧
        b'.size = b.size + es.flatten.length ∧ b'.contents = b.contents ++ es.flatten ∧
        offs.length = es.length ∧
        ∀ i, i < es.length → offs[i]? = some (pos (b.size + (es.take i).flatten.length)) := by
  intro es
  induction es with
  | nil => intro b _ h _; exact ⟨b, [], rfl, h, rfl, by simp, by simp, rfl, by simp⟩
  | cons e es ih =>
    intro b hP h hb
    simp only [List.flatten_cons, List.length_append] at hb
    obtain ⟨b1, h1, h2, h3, h4, h5⟩ := hf e b (hP e (by simp)) h (by omega)
    obtain ⟨b2, offs, g1, g2, g3, g4, g5, g6, g7⟩ := ih b1 (fun x hx => hP x (by simp [hx])) h2 (by omega)
    refine ⟨b2, pos b.size :: offs, ?_, g2, by rw [g3, h4], ?_, ?_, by simp [g6], ?_⟩
    · simp [addAll, h1, g1]
    · rw [g4, h3]; simp; omega
    · rw [g5, h5]; simp
    · intro i hi
      cases i with
      | zero => simp
      | succ i =>
        simp only [List.length_cons] at hi
        rw [List.getElem?_cons_succ, g7 i (by omega), h3]
        simp [Nat.add_assoc]

theorem own_new (k : Kind) : Own k Buf.new := .none _ rfl rfl

theorem flatten_len {n : Nat} (es : List (List Byte)) (h : ∀ e ∈ es, e.length = n) :
    es.flatten.length = n * es.length := by
  induction es with
  | nil => simp
  | cons e es ih =>
    simp [h e (by simp), ih (fun x hx => h x (by simp [hx])), Nat.mul_add]; omega

theorem flatten_take_len {n : Nat} (es : List (List Byte)) (h : ∀ e ∈ es, e.length = n) (i : Nat)
    (hi : i ≤ es.length) : (es.take i).flatten.length = n * i := by
  rw [flatten_len (n := n) _ (fun e he => h e (List.mem_of_mem_take he))]
  simp [Nat.min_eq_left hi]

/-! Traversal -/

theorem drop_flatten {n : Nat} (es : List (List Byte)) (h : ∀ e ∈ es, e.length = n) (i : Nat)
    (hi : i < es.length) : (es.flatten.drop (n * i)).take n = es[i] := by
  induction es generalizing i with
  | nil => simp at hi
  | cons e es ih =>
    have he := h e (by simp)
    cases i with
    | zero => simp [← he]
    | succ i =>
      simp only [List.length_cons] at hi
      simp only [List.flatten_cons, List.getElem_cons_succ]
      rw [show n * (i + 1) = e.length + n * i by rw [he, Nat.mul_add]; omega, List.drop_append]
      simp only [List.drop_eq_nil_of_le (show e.length ≤ e.length + n * i by omega), List.nil_append,
        Nat.add_sub_cancel_left]
      exact ih (fun x hx => h x (by simp [hx])) i (by omega)

theorem next_in (b : Buf) (m : List Byte) (hf : Fit b m) (es : List (List Byte))
    (h : ∀ e ∈ es, e.length = 8) (hc : b.contents = es.flatten) (hz : b.size = es.flatten.length)
    (i : Nat) (hi : i < es.length) (hx : b.index = 8 * i) :
    next b = .ok (some (8 * i, es[i]), { b with index := 8 * (i + 1) }) := by
  have h8 := flatten_len es h
  have h1 : ¬ b.index ≥ b.size := by omega
  have h2 : b.index + 8 ≤ m.length := by have := hf.size; omega
  unfold next
  rw [if_neg h1, hf.block]
  simp only []
  rw [if_pos h2]
  have h3 : (m.drop b.index).take 8 = es[i] := by
    rw [← drop_flatten es h i hi, ← hc, hf.contents, hx, List.drop_take, List.take_take]
    congr 1
    omega
  rw [h3, hx]
  rfl

theorem traverse_from (es : List (List Byte)) (h : ∀ e ∈ es, e.length = 8) (m : List Byte) :
    ∀ (n i fuel : Nat) (b : Buf), n = es.length - i → i ≤ es.length → fuel ≥ n + 1 → Fit b m →
      b.contents = es.flatten → b.size = es.flatten.length → b.index = 8 * i →
      traverse fuel b = .ok (es.drop i) := by
  intro n
  induction n with
  | zero =>
    intro i fuel b hn hi hfu hf hc hz hx
    obtain ⟨f, rfl⟩ : ∃ f, fuel = f + 1 := ⟨fuel - 1, by omega⟩
    have h8 := flatten_len es h
    have : b.index ≥ b.size := by omega
    simp only [traverse, next, if_pos this, Res.ok_bind]
    rw [List.drop_eq_nil_of_le (by omega)]
  | succ n ih =>
    intro i fuel b hn hi hfu hf hc hz hx
    obtain ⟨f, rfl⟩ : ∃ f, fuel = f + 1 := ⟨fuel - 1, by omega⟩
    have hlt : i < es.length := by omega
    rw [traverse, next_in b m hf es h hc hz i hlt hx]
    simp only [Res.ok_bind]
    rw [ih (i + 1) f { b with index := 8 * (i + 1) } (by omega) (by omega) (by omega)
      ⟨hf.block, hf.size, hf.alloc⟩ hc hz rfl]
    simp only [Res.ok_bind]
    rw [List.drop_eq_getElem_cons hlt]

theorem traverse_none (fuel : Nat) (b : Buf) (h : b.size = 0) : traverse (fuel + 1) b = .ok [] := by
  simp [traverse, next, h]

end Pas.PoffMem

namespace Pas.PoffMem

open Pas.PoffMem.Spec

/-! One addition, for each table -/

theorem addReloc_own (junk : Nat → Byte) (e : List Byte) (b : Buf) (he : e.length = 8)
    (h : Own relKind b) (hb : b.size + e.length + relKind.inc < 2 ^ 32) :
    ∃ b', addReloc junk e b = .ok (b.size, b') ∧ Own relKind b' ∧ b'.size = b.size + e.length ∧
      b'.index = b.index ∧ b'.contents = b.contents ++ e := by
  have := add_own junk relKind e b h ⟨by decide, by decide, .inr (by rw [he]; decide)⟩ hb
  rw [he] at *
  exact this

theorem addLine_own (junk : Nat → Byte) (e : List Byte) (b : Buf) (he : e.length = 8)
    (h : Own lineKind b) (hb : b.size + e.length + lineKind.inc < 2 ^ 32) :
    ∃ b', addLine junk e b = .ok (b.size, b') ∧ Own lineKind b' ∧ b'.size = b.size + e.length ∧
      b'.index = b.index ∧ b'.contents = b.contents ++ e := by
  have := add_own junk lineKind e b h ⟨by decide, by decide, .inr (by rw [he]; decide)⟩ hb
  rw [he] at *
  exact this

theorem addTmpSym_own (junk : Nat → Byte) (e : List Byte) (b : Buf) (he : e.length = 16)
    (h : Own symKind b) (hb : b.size + e.length + symKind.inc < 2 ^ 32) :
    ∃ b', addTmpSym junk e b = .ok (b.size, b') ∧ Own symKind b' ∧ b'.size = b.size + e.length ∧
      b'.index = b.index ∧ b'.contents = b.contents ++ e := by
  have := add_own junk symKind e b h ⟨by decide, by decide, .inr (by rw [he]; decide)⟩ hb
  rw [he] at *
  exact this

theorem addSym_own (junk : Nat → Byte) (e : List Byte) (b : Buf) (he : e.length = 16)
    (h : Own symKind b) (hb : b.size + e.length + symKind.inc < 2 ^ 32) :
    ∃ b', addSym junk e b = .ok (b.size / 16, b') ∧ Own symKind b' ∧
      b'.size = b.size + e.length ∧ b'.index = b.index ∧ b'.contents = b.contents ++ e := by
  obtain ⟨b', h1, h2⟩ := addTmpSym_own junk e b he h hb
  refine ⟨b', ?_, h2⟩
  unfold addTmpSym at h1
  simp [addSym, h1]

/-- The sizes of the file name table are multiples of 4. -/
theorem addFile_eq (junk : Nat → Byte) (e : List Byte) (b : Buf) (h4 : b.size % 4 = 0) :
    addFile junk e b = (do
      let r ← b.add junk fileKind 4 e 4
      .ok (r.1 / 4, r.2)) := by
  have hz : ∀ c, (b.check junk fileKind).room junk fileKind 4 = .ok c → c.size % 4 = 0 := by
    intro c hc
    have h1 : (b.check junk fileKind).size % 4 = 0 := by
      unfold Buf.check; split <;> simp [h4]
    unfold Buf.room at hc
    generalize (if fileKind.loop = true then growTo fileKind.inc ((b.check junk fileKind).size + 4)
      ((b.check junk fileKind).alloc + fileKind.inc)
      else (b.check junk fileKind).alloc + fileKind.inc) = n at hc
    by_cases h2 : (b.check junk fileKind).size + 4 > (b.check junk fileKind).alloc
    · rw [if_pos h2] at hc
      dsimp only at hc
      by_cases h3 : n ≥ 2 ^ 32
      · rw [if_pos h3] at hc; cases hc
      · rw [if_neg h3] at hc
        cases hc
        exact h1
    · rw [if_neg h2] at hc
      cases hc
      exact h1
  unfold addFile Buf.add
  cases hc : (b.check junk fileKind).room junk fileKind 4 with
  | ok c =>
    have := hz c hc
    simp only [Res.ok_bind]
    rw [show 4 * (c.size / 4) = c.size by omega]
    cases c.store c.size e <;> rfl
  | ub => rfl
  | hang => rfl

theorem addProgByte_own (junk : Nat → Byte) (x : Byte) (b : Buf)
    (h : Own progKind b) (hb : b.size + 1 + progKind.inc < 2 ^ 32) :
    ∃ b', addProgByte junk x b = .ok (b.size, b') ∧ Own progKind b' ∧ b'.size = b.size + 1 ∧
      b'.index = b.index ∧ b'.contents = b.contents ++ [x] :=
  add_own junk progKind [x] b h ⟨by decide, by decide, .inr (by simp [progKind])⟩ hb

theorem writeTmp_own (junk : Nat → Byte) (d : List Byte) (b : Buf) (hd : d.length < 65536)
    (h : Own tmpProgKind b) (hb : b.size + d.length + tmpProgKind.inc < 2 ^ 32) :
    ∃ b', writeTmpProgBytes junk d b = .ok (b.size, b') ∧ Own tmpProgKind b' ∧
      b'.size = b.size + d.length ∧ b'.index = b.index ∧ b'.contents = b.contents ++ d := by
  unfold writeTmpProgBytes
  rw [Nat.mod_eq_of_lt hd]
  exact add_own junk tmpProgKind d b h ⟨by decide, by decide, .inl rfl⟩ hb

/-! The file name table -/

theorem addFiles_own (junk : Nat → Byte) :
    ∀ (es : List (List Byte)) (b : Buf), (∀ e ∈ es, e.length = 4) → Own fileKind b →
      b.size % 4 = 0 → b.size + es.flatten.length + fileKind.inc < 2 ^ 32 →
      ∃ b' offs, addAll (addFile junk) es b = .ok (offs, b') ∧ Own fileKind b' ∧
        b'.size = b.size + es.flatten.length ∧ b'.contents = b.contents ++ es.flatten ∧
        offs = (List.range es.length).map (b.size / 4 + ·) := by
  intro es
  induction es with
  | nil => intro b _ h _ _; exact ⟨b, [], rfl, h, by simp, by simp, rfl⟩
  | cons e es ih =>
    intro b hP h h4 hb
    have he := hP e (by simp)
    simp only [List.flatten_cons, List.length_append] at hb
    obtain ⟨b1, h1, h2, h3, -, h5⟩ :=
      add_own junk fileKind e b h ⟨by decide, by decide, .inr (by rw [he]; decide)⟩ (by omega)
    rw [he] at h1 h3
    obtain ⟨b2, offs, g1, g2, g4, g5, g7⟩ :=
      ih b1 (fun x hx => hP x (by simp [hx])) h2 (by omega) (by omega)
    refine ⟨b2, b.size / 4 :: offs, ?_, g2, ?_, ?_, ?_⟩
    · simp [addAll, addFile_eq junk e b h4, h1, g1]
    · rw [g4, h3]; simp; omega
    · rw [g5, h5]; simp
    · rw [g7, h3]
      simp only [List.length_cons, List.range_succ_eq_map, List.map_cons, List.map_map]
      simp only [Nat.add_zero, List.cons.injEq, true_and]
      apply List.map_congr_left
      intro a _
      simp only [Function.comp_apply]
      omega

/-! Read-only strings -/

theorem addRo_own (junk : Nat → Byte) (s : List Byte) (b : Buf) (hs : s.length + 1 < 65536)
    (h : Own roKind b) (he : b.size % 2 = 0) (ha : b.block ≠ none → b.alloc % 2 = 0)
    (hb : b.size + (s.length + 1) + roKind.inc < 2 ^ 32) :
    ∃ b' pad, addRoString junk s b = .ok (b.size, b') ∧ Own roKind b' ∧ b'.size % 2 = 0 ∧
      b'.alloc % 2 = 0 ∧ b'.size = b.size + (s.length + 1) + pad.length ∧ pad.length ≤ 1 ∧
      b'.contents = b.contents ++ (s ++ [0#8] ++ pad) := by
  obtain ⟨m, hf, hz, hsa, -, hc⟩ := h.check junk (by decide)
  have hae : (b.check junk roKind).alloc % 2 = 0 := by
    cases hbl : b.block with
    | none => rw [(check_new junk roKind b hbl (by decide)).2.2.1]; decide
    | some m => rw [check_some junk roKind b m hbl]; exact ha (by simp [hbl])
  obtain ⟨c, m', hr, hf', hs', -, hal, ht, hev⟩ :=
    room_ok junk roKind (s.length + 1) (b.check junk roKind) m hf (by decide) (.inl rfl) (by omega)
  have hev := hev (by decide) hae
  have hd : (s ++ [0#8]).length = s.length + 1 := by simp
  have hl : c.size + (s ++ [0#8]).length ≤ m'.length := by have := hf'.alloc; rw [hd]; omega
  have hadv : 2 * ((s.length + 2) / 2) = s.length + 1 ∨ 2 * ((s.length + 2) / 2) = s.length + 2 := by
    omega
  have hlen : c.size + 2 * ((s.length + 2) / 2) ≤ c.alloc := by omega
  have hlen' : c.size + 2 * ((s.length + 2) / 2) ≤ m'.length := by have := hf'.alloc; omega
  unfold addRoString Buf.add
  rw [Nat.mod_eq_of_lt hs, hr]
  simp only [Res.ok_bind]
  rw [store_ok c m' hf'.block c.size _ hl]
  simp only [Res.ok_bind]
  refine ⟨{ c with
      block := some (m'.take c.size ++ (s ++ [0#8]) ++ m'.drop (c.size + (s ++ [0#8]).length))
      size := c.size + 2 * ((s.length + 2) / 2) },
    (m'.drop (c.size + (s.length + 1))).take (2 * ((s.length + 2) / 2) - (s.length + 1)),
    by rw [hs', hz], ?_, ?_, hev, ?_, ?_, ?_⟩
  · refine .some _ _ ⟨rfl, ?_, ?_⟩ hlen
    · rw [stored_length _ _ _ hl]; exact hlen'
    · rw [stored_length _ _ _ hl]; exact hf'.alloc
  · simp only; omega
  · simp only [List.length_take, List.length_drop]; omega
  · simp only [List.length_take, List.length_drop]; omega
  · simp only [Buf.contents, Option.getD_some]
    rw [List.take_append, List.take_of_length_le (by simp; omega)]
    have h1 : m'.take c.size = b.contents := by
      rw [hs', ht, ← hc, hf.contents]
    rw [h1]
    have h2 : b.contents.length = c.size := by
      rw [← h1]; simp; omega
    simp only [List.append_assoc, List.length_append, h2, hd]
    congr 4
    omega

theorem addRo_all (junk : Nat → Byte) :
    ∀ (ss : List (List Byte)) (b : Buf), (∀ s ∈ ss, s.length + 1 < 65536) → Own roKind b →
      b.size % 2 = 0 → (b.block ≠ none → b.alloc % 2 = 0) →
      b.size + (ss.map fun s => s.length + 2).sum + roKind.inc < 2 ^ 32 →
      ∃ b' offs, addAll (addRoString junk) ss b = .ok (offs, b') ∧ Own roKind b' ∧
        b'.size % 2 = 0 ∧ (∃ t, b'.contents = b.contents ++ t) ∧
        offs.length = ss.length ∧
        ∀ (i : Nat) (s : List Byte) (o : Nat), ss[i]? = some s → offs[i]? = some o →
          o % 2 = 0 ∧ b.size ≤ o ∧ (b'.contents.drop o).take (s.length + 1) = s ++ [0#8] := by
  intro ss
  induction ss with
  | nil =>
    intro b _ h he _ _
    exact ⟨b, [], rfl, h, he, ⟨[], by simp⟩, rfl, by simp⟩
  | cons s ss ih =>
    intro b hP h he ha hb
    simp only [List.map_cons, List.sum_cons] at hb
    obtain ⟨b1, pad, h1, h2, h3, h4, h5, h6, h7⟩ := addRo_own junk s b (hP s (by simp)) h he ha (by omega)
    obtain ⟨b2, offs, g1, g2, g3, ⟨t, g4⟩, g5, g6⟩ :=
      ih b1 (fun x hx => hP x (by simp [hx])) h2 h3 (fun _ => h4) (by omega)
    refine ⟨b2, b.size :: offs, by simp [addAll, h1, g1], g2, g3, ⟨s ++ [0#8] ++ pad ++ t, ?_⟩,
      by simp [g5], ?_⟩
    · rw [g4, h7]; simp
    · intro i x o hi ho
      cases i with
      | zero =>
        simp only [List.getElem?_cons_zero, Option.some.injEq] at hi ho
        subst hi ho
        refine ⟨he, Nat.le_refl _, ?_⟩
        have hl : b.contents.length = b.size := by
          have := congrArg List.length h7
          cases h with
          | none hn hs => simp [Buf.contents, hs]
          | some m hf hs => rw [hf.contents]; simp only [List.length_take]; exact Nat.min_eq_left hf.size
        rw [g4, h7, List.append_assoc, ← hl, List.drop_left]
        simp only [List.append_assoc]
        rw [← List.append_assoc, List.take_append_of_le_length (by simp), List.take_of_length_le (by simp)]
      | succ i =>
        simp only [List.getElem?_cons_succ] at hi ho
        have := g6 i x o hi ho
        exact ⟨this.1, by omega, this.2.2⟩

/-! Strings -/

/-- The states of a string table: new, read from a file, or grown. -/
inductive StrOk : Buf → Option (List Byte) → Prop
  | none (b : Buf) (h : b.block = none) : StrOk b none
  | some (b : Buf) (m : List Byte) (h : Fit b m) : StrOk b (some b.contents)

theorem firstStr_ok (junk : Nat → Byte) (b : Buf) (t : Option (List Byte)) (h : StrOk b t) :
    ∃ c m, firstStr junk b = .ok c ∧ Fit c m ∧ c.contents = t.getD [0#8] := by
  cases h with
  | none h =>
    simp only [firstStr, h]
    rw [store_ok _ (malloc junk strKind.initial) rfl 0 [0#8] (by simp [malloc, strKind])]
    refine ⟨_, _, rfl, ⟨rfl, ?_, ?_⟩, ?_⟩
    · rw [stored_length _ _ _ (by simp [malloc, strKind])]; simp [malloc, strKind]
    · rw [stored_length _ _ _ (by simp [malloc, strKind])]; simp [malloc, strKind]
    · simp [Buf.contents]
  | some m h =>
    simp only [firstStr, h.block]
    exact ⟨b, m, rfl, h, rfl⟩

theorem addStr_ok (junk : Nat → Byte) (s : Option (List Byte)) (b : Buf) (t : Option (List Byte))
    (h : StrOk b t) (i : Nat) (t' : List Byte) (ha : Poff.addString t s = .ok (i, t'))
    (hb : t'.length + strKind.inc < 2 ^ 32) :
    ∃ b', addStr junk s b = .ok (i, b') ∧ b'.contents = t' ∧ StrOk b' (some t') := by
  obtain ⟨c, m, hc, hf, ht⟩ := firstStr_ok junk b t h
  unfold addStr
  rw [hc]
  simp only [Res.ok_bind]
  unfold Poff.addString at ha
  simp only [← ht] at ha
  have hcl : c.contents.length = c.size := by rw [hf.contents]; simp only [List.length_take]; exact Nat.min_eq_left hf.size
  cases hfi : Poff.findString (some c.contents) s with
  | ub => rw [hfi] at ha; simp at ha
  | hang => rw [hfi] at ha; simp at ha
  | ok r =>
    rw [hfi] at ha
    simp only [Res.ok_bind] at ha ⊢
    have keep : ∀ {x}, t' = c.contents → i = x →
        ∃ b', (Res.ok (x, c) : Res (Nat × Buf)) = .ok (i, b') ∧ b'.contents = t' ∧ StrOk b' (some t') := by
      intro x h1 h2
      subst h2 h1
      exact ⟨c, rfl, rfl, .some c m hf⟩
    cases r with
    | some j =>
      simp only [Res.ok.injEq, Prod.mk.injEq] at ha
      exact keep ha.2.symm ha.1.symm
    | none =>
      cases s with
      | none =>
        simp only [Res.ok.injEq, Prod.mk.injEq] at ha
        exact keep ha.2.symm ha.1.symm
      | some s =>
        simp only at ha ⊢
        by_cases hz : s.length = 0
        · rw [if_pos hz] at ha ⊢
          simp only [Res.ok.injEq, Prod.mk.injEq] at ha
          exact keep ha.2.symm ha.1.symm
        · rw [if_neg hz] at ha ⊢
          simp only [Res.ok.injEq, Prod.mk.injEq] at ha
          obtain ⟨hi, ht'⟩ := ha
          subst ht' hi
          simp only [List.length_append, List.length_cons, List.length_nil] at hb
          obtain ⟨c', m', hr, hf', hs', -, hal, htk, -⟩ :=
            room_ok junk strKind (s.length + 1) c m hf (by decide) (.inl rfl) (by omega)
          have hd : (s ++ [0#8]).length = s.length + 1 := by simp
          have hl : c'.size + (s ++ [0#8]).length ≤ m'.length := by
            have := hf'.alloc; rw [hd]; omega
          rw [hr]
          simp only [Res.ok_bind]
          rw [store_ok c' m' hf'.block c'.size _ hl]
          simp only [Res.ok_bind]
          have hcont : ({ c' with
              block := some (m'.take c'.size ++ (s ++ [0#8]) ++ m'.drop (c'.size + (s ++ [0#8]).length))
              size := c'.size + (s.length + 1) } : Buf).contents = c.contents ++ s ++ [0#8] := by
            simp only [Buf.contents, Option.getD_some]
            rw [← hd, stored_take _ _ _ hl, hs', htk, hf.block, Option.getD_some]
            simp
          refine ⟨_, by rw [hcl, hs'], hcont, ?_⟩
          rw [← hcont]
          refine .some _ (m'.take c'.size ++ (s ++ [0#8]) ++ m'.drop (c'.size + (s ++ [0#8]).length))
            ⟨rfl, ?_, ?_⟩
          · rw [stored_length _ _ _ hl, ← hd]; exact hl
          · rw [stored_length _ _ _ hl]; exact hf'.alloc

end Pas.PoffMem
