import Verif.Spec.Strings
import Verif.Lemmas.Ok
import Verif.Lemmas.Memory
import Verif.Lemmas.Heap

/-! Lemmas about the byte loops of the string library. -/
namespace Pas.Str
open Spec

theorem text_length (m : Nat → Word) (a n : Nat) : (text m a n).length = n := by simp [text]

@[simp] theorem text_getElem (m : Nat → Word) (a n i : Nat) (h : i < (text m a n).length) :
    (text m a n)[i] = byte m (a + i) := by simp [text]

theorem text_zero (m : Nat → Word) (a : Nat) : text m a 0 = [] := rfl

theorem text_succ (m : Nat → Word) (a n : Nat) :
    text m a (n + 1) = byte m a :: text m (a + 1) n := by
  simp only [text, List.range_succ_eq_map, List.map_cons, List.map_map, Nat.add_zero]
  congr 1
  apply List.map_congr_left
  intro i _
  show byte m (a + (i + 1)) = byte m (a + 1 + i)
  congr 1; omega

theorem text_congr {m m' : Nat → Word} {a b n : Nat}
    (h : ∀ i < n, byte m (a + i) = byte m' (b + i)) : text m a n = text m' b n := by
  apply List.map_congr_left
  intro i hi
  exact h i (List.mem_range.1 hi)

theorem text_take (m : Nat → Word) (a n k : Nat) : (text m a n).take k = text m a (min k n) := by
  apply List.ext_getElem
  · simp [text]
  · intro i h1 h2
    simp

theorem rdB_eq (s : VM) {a : Nat} (h : a < 2 * s.words) : s.rdB a = .ok (byte s.mem a) := by
  rw [VM.rdB, if_pos (by omega), byteAt_eq]

theorem wrB_eq (s : VM) {a : Nat} (b : Byte) (h : a < 2 * s.words) :
    s.wrB a b = .ok { s with mem := updB s.mem a b } := by
  rw [VM.wrB, if_pos (by omega)]

theorem byte_updW (m : Nat → Word) {i x : Nat} (w : Word) (h : x / 2 ≠ i) :
    byte (updW m i w) x = byte m x := by
  unfold byte; rw [updW_other _ _ h]

theorem word_of_bytes {m m' : Nat → Word} {i : Nat} (h0 : byte m (2 * i) = byte m' (2 * i))
    (h1 : byte m (2 * i + 1) = byte m' (2 * i + 1)) : m i = m' i := by
  unfold byte at h0 h1
  rw [show 2 * i / 2 = i by omega, show 2 * i % 2 = 0 by omega] at h0
  rw [show (2 * i + 1) / 2 = i by omega, show (2 * i + 1) % 2 = 1 by omega] at h1
  generalize m i = a at *
  generalize m' i = b at *
  apply BitVec.eq_of_getLsbD_eq
  intro j hj
  by_cases h : j < 8
  · have := congrArg (fun x => x.getLsbD j) h0
    simpa [h] using this
  · have := congrArg (fun x => x.getLsbD (j - 8)) h1
    simp only [BitVec.getLsbD_extractLsb', show j - 8 < 8 by omega, decide_true, Bool.true_and,
      show 8 * 1 + (j - 8) = j by omega] at this
    exact this

theorem readBytes_eq (s : VM) (n : Nat) : ∀ a, a + n ≤ 2 * s.words →
    readBytes s a n = .ok (text s.mem a n) := by
  induction n with
  | zero => intro a _; rfl
  | succ n ih =>
    intro a h
    rw [readBytes, rdB_eq s (by omega), Res.ok_bind, ih (a + 1) (by omega), text_succ]; rfl

/-- `memcpy` between areas that do not overlap. -/
theorem memcpy_ok {s : VM} {d a n : Nat} (hd : d + n ≤ 2 * s.words) (ha : a + n ≤ 2 * s.words)
    (hap : Apart d n a n) :
    ∃ m, memcpy s d a n = .ok { s with mem := m } ∧
      (∀ i < n, byte m (d + i) = byte s.mem (a + i)) ∧
      (∀ x, (x < d ∨ d + n ≤ x) → byte m x = byte s.mem x) := by
  unfold memcpy
  by_cases hn : n = 0
  · rw [if_pos hn]
    exact ⟨s.mem, rfl, fun i hi => by omega, fun _ _ => rfl⟩
  · unfold Apart at hap
    rw [if_neg hn, if_neg (by omega), readBytes_eq s n a ha, Res.ok_bind]
    obtain ⟨m, h1, h2, h3⟩ := copyIn_spec (text s.mem a n) s d (by rw [text_length]; exact hd)
    rw [text_length] at h3
    refine ⟨m, h1, fun i hi => ?_, h3⟩
    rw [h2 i (by rw [text_length]; exact hi), text_getElem]

/-- The upwards loop is right unless the destination starts inside the source. -/
theorem copyUp_ok (n : Nat) : ∀ {s : VM} {d a : Nat}, d + n ≤ 2 * s.words → a + n ≤ 2 * s.words →
    (d ≤ a ∨ a + n ≤ d) →
    ∃ m, copyUp s d a n = .ok { s with mem := m } ∧
      (∀ i < n, byte m (d + i) = byte s.mem (a + i)) ∧
      (∀ x, (x < d ∨ d + n ≤ x) → byte m x = byte s.mem x) := by
  induction n with
  | zero => intro s d a _ _ _; exact ⟨s.mem, rfl, fun i hi => by omega, fun _ _ => rfl⟩
  | succ n ih =>
    intro s d a hd ha hda
    rw [copyUp, rdB_eq s (by omega), Res.ok_bind, wrB_eq s _ (by omega), Res.ok_bind]
    obtain ⟨m, h1, h2, h3⟩ := ih (s := { s with mem := updB s.mem d (byte s.mem a) })
      (d := d + 1) (a := a + 1) (by show _ ≤ 2 * s.words; omega) (by show _ ≤ 2 * s.words; omega)
      (by omega)
    refine ⟨m, h1, ?_, ?_⟩
    · intro i hi
      cases i with
      | zero =>
        rw [h3 _ (by omega)]
        show byte (updB s.mem d _) d = _
        rw [byte_updB, if_pos rfl]; rfl
      | succ i =>
        rw [show d + (i + 1) = d + 1 + i by omega, h2 i (by omega)]
        show byte (updB s.mem d _) (a + 1 + i) = _
        rw [byte_updB, if_neg (by omega)]; congr 1; omega
    · intro x hx
      rw [h3 x (by omega)]
      show byte (updB s.mem d _) x = _
      rw [byte_updB, if_neg (by omega)]

/-- The downwards loop is right unless the source starts inside the destination. -/
theorem copyDown_ok (n : Nat) : ∀ {s : VM} {d a : Nat}, d + n ≤ 2 * s.words →
    a + n ≤ 2 * s.words → (a ≤ d ∨ d + n ≤ a) →
    ∃ m, copyDown s d a n = .ok { s with mem := m } ∧
      (∀ i < n, byte m (d + i) = byte s.mem (a + i)) ∧
      (∀ x, (x < d ∨ d + n ≤ x) → byte m x = byte s.mem x) := by
  induction n with
  | zero => intro s d a _ _ _; exact ⟨s.mem, rfl, fun i hi => by omega, fun _ _ => rfl⟩
  | succ n ih =>
    intro s d a hd ha hda
    rw [copyDown, rdB_eq s (by omega), Res.ok_bind, wrB_eq s _ (by omega), Res.ok_bind]
    obtain ⟨m, h1, h2, h3⟩ := ih (s := { s with mem := updB s.mem (d + n) (byte s.mem (a + n)) })
      (d := d) (a := a) (by show _ ≤ 2 * s.words; omega) (by show _ ≤ 2 * s.words; omega)
      (by omega)
    refine ⟨m, h1, ?_, ?_⟩
    · intro i hi
      by_cases hin : i = n
      · subst hin
        rw [h3 _ (by omega)]
        show byte (updB s.mem (d + i) _) (d + i) = _
        rw [byte_updB, if_pos rfl]
      · rw [h2 i (by omega)]
        show byte (updB s.mem (d + n) _) (a + i) = _
        rw [byte_updB, if_neg (by omega)]
    · intro x hx
      rw [h3 x (by omega)]
      show byte (updB s.mem (d + n) _) x = _
      rw [byte_updB, if_neg (by omega)]

theorem fill_ok (b : Byte) (n : Nat) : ∀ {s : VM} {d : Nat}, d + n ≤ 2 * s.words →
    ∃ m, fill s d b n = .ok { s with mem := m } ∧
      (∀ i < n, byte m (d + i) = b) ∧
      (∀ x, (x < d ∨ d + n ≤ x) → byte m x = byte s.mem x) := by
  induction n with
  | zero => intro s d _; exact ⟨s.mem, rfl, fun i hi => by omega, fun _ _ => rfl⟩
  | succ n ih =>
    intro s d hd
    rw [fill, wrB_eq s _ (by omega), Res.ok_bind]
    obtain ⟨m, h1, h2, h3⟩ := ih (s := { s with mem := updB s.mem d b })
      (d := d + 1) (by show _ ≤ 2 * s.words; omega)
    refine ⟨m, h1, ?_, ?_⟩
    · intro i hi
      cases i with
      | zero =>
        rw [h3 _ (by omega)]
        show byte (updB s.mem d _) d = _
        rw [byte_updB, if_pos rfl]
      | succ i =>
        rw [show d + (i + 1) = d + 1 + i by omega, h2 i (by omega)]
    · intro x hx
      rw [h3 x (by omega)]
      show byte (updB s.mem d _) x = _
      rw [byte_updB, if_neg (by omega)]

theorem freeTmp_plain (s : VM) {a alloc : Word} (h : ¬Temp alloc) : freeTmp s a alloc = .ok s := by
  have := alloc.isLt
  unfold Temp at h
  rw [freeTmp, Heap.freeTmpString, if_neg (by omega)]; rfl

/-! Successive pops. -/
theorem popK (s : VM) (k : Nat) (w w' : Word) (hw : w.toNat = 2 * k) (hw' : w' = w + 2#16)
    (h1 : k ≤ s.top) (h2 : s.top < s.words) :
    ({ s with sp := s.sp - w } : VM).pop = .ok (s.mem (s.top - k), { s with sp := s.sp - w' }) := by
  have hk : s.top = s.sp.toNat / 2 := rfl
  have ht : ({ s with sp := s.sp - w } : VM).top = s.top - k := by
    show (s.sp - w).toNat / 2 = s.sp.toNat / 2 - k
    have : w.toNat ≤ s.sp.toNat := by omega
    rw [BitVec.toNat_sub_of_le (by rw [BitVec.le_def]; omega)]; omega
  rw [VM.pop_eq _ (by rw [ht]; show _ < s.words; omega)]
  have : s.sp - w - 2#16 = s.sp - w' := by subst hw'; bv_omega
  simp only [ht, this]

theorem topK (s : VM) (k : Nat) (w : Word) (hw : w.toNat = 2 * k) (h1 : k ≤ s.top)
    (m : Nat → Word) : ({ s with sp := s.sp - w, mem := m } : VM).top = s.top - k := by
  have hk : s.top = s.sp.toNat / 2 := rfl
  show (s.sp - w).toNat / 2 = s.sp.toNat / 2 - k
  rw [BitVec.toNat_sub_of_le (by rw [BitVec.le_def]; omega)]; omega

theorem pop0 (s : VM) (h2 : s.top < s.words) :
    s.pop = .ok (s.mem (s.top - 0), { s with sp := s.sp - 2#16 }) := VM.pop_eq s h2
theorem pop1 (s : VM) (h1 : 1 ≤ s.top) (h2 : s.top < s.words) :
    ({ s with sp := s.sp - 2#16 } : VM).pop =
      .ok (s.mem (s.top - 1), { s with sp := s.sp - 4#16 }) := popK s 1 _ _ rfl rfl h1 h2
theorem pop2 (s : VM) (h1 : 2 ≤ s.top) (h2 : s.top < s.words) :
    ({ s with sp := s.sp - 4#16 } : VM).pop =
      .ok (s.mem (s.top - 2), { s with sp := s.sp - 6#16 }) := popK s 2 _ _ rfl rfl h1 h2
theorem pop3 (s : VM) (h1 : 3 ≤ s.top) (h2 : s.top < s.words) :
    ({ s with sp := s.sp - 6#16 } : VM).pop =
      .ok (s.mem (s.top - 3), { s with sp := s.sp - 8#16 }) := popK s 3 _ _ rfl rfl h1 h2
theorem pop4 (s : VM) (h1 : 4 ≤ s.top) (h2 : s.top < s.words) :
    ({ s with sp := s.sp - 8#16 } : VM).pop =
      .ok (s.mem (s.top - 4), { s with sp := s.sp - 10#16 }) := popK s 4 _ _ rfl rfl h1 h2
theorem pop5 (s : VM) (h1 : 5 ≤ s.top) (h2 : s.top < s.words) :
    ({ s with sp := s.sp - 10#16 } : VM).pop =
      .ok (s.mem (s.top - 5), { s with sp := s.sp - 12#16 }) := popK s 5 _ _ rfl rfl h1 h2
theorem pop6 (s : VM) (h1 : 6 ≤ s.top) (h2 : s.top < s.words) :
    ({ s with sp := s.sp - 12#16 } : VM).pop =
      .ok (s.mem (s.top - 6), { s with sp := s.sp - 14#16 }) := popK s 6 _ _ rfl rfl h1 h2

theorem rdF_eq (s : VM) {p k : Nat} (hp : p % 2 = 0) (h : p / 2 + k < s.words) :
    Heap.rdF s p k = .ok (s.mem (p / 2 + k)).toNat := by
  rw [Heap.rdF, if_pos hp, VM.rd_eq s h]; rfl

theorem wrF_eq (s : VM) {p k : Nat} (v : Nat) (hp : p % 2 = 0) (h : p / 2 + k < s.words) :
    Heap.wrF s p k v = .ok { s with mem := updW s.mem (p / 2 + k) (BitVec.ofNat 16 v) } := by
  rw [Heap.wrF, if_pos hp, VM.wr_eq s _ h]

/-- The fields of a variable are not touched by writes elsewhere. -/
theorem field_of_bytes {m m' : Nat → Word} {v k : Nat} (hv : v % 2 = 0)
    (h : ∀ x, v + 2 * k ≤ x → x < v + 2 * k + 2 → byte m x = byte m' x) :
    m (v / 2 + k) = m' (v / 2 + k) := by
  apply word_of_bytes
  · exact h _ (by omega) (by omega)
  · exact h _ (by omega) (by omega)

/-- Assignment: what is stored when the buffers are different. -/
theorem strCpy_ok {s : VM} {src size d off : Word} (hv : StrVar s (d + off).toNat)
    (hs : src.toNat + size.toNat ≤ 2 * s.words)
    (hne : src.toNat ≠ strBuf s.mem (d + off).toNat)
    (hap : Apart (strBuf s.mem (d + off).toNat) (strCap s.mem (d + off).toNat) src.toNat size.toNat) :
    ∃ m, strCpy s src size d off = .ok { s with mem := m } ∧
      strVal m (d + off).toNat =
        (text s.mem src.toNat size.toNat).take (strCap s.mem (d + off).toNat) ∧
      strBuf m (d + off).toNat = strBuf s.mem (d + off).toNat ∧
      strCap m (d + off).toNat = strCap s.mem (d + off).toNat ∧
      OnlyString s.mem m (d + off).toNat := by
  obtain ⟨hev, hf, hb, hpart⟩ := hv
  unfold strCpy
  simp only []
  generalize hV : (d + off).toNat = v at *
  have hcap : (s.mem (v / 2 + 2)).toNat % 4096 = strCap s.mem v := rfl
  have hbuf : (s.mem (v / 2 + 1)).toNat = strBuf s.mem v := rfl
  have hsz := size.isLt
  rw [rdF_eq s hev (by omega), Res.ok_bind]
  simp only [hcap]
  rw [show (v + 2) / 2 = v / 2 + 1 by omega, VM.rd_eq s (by omega), Res.ok_bind]
  rw [if_pos (by intro h; exact hne (by rw [← h]; rfl))]
  unfold Apart at hap hpart
  have hn : (if size.toNat > strCap s.mem v then strCap s.mem v else size.toNat) =
      min (strCap s.mem v) size.toNat := by split <;> omega
  rw [hn, hbuf]
  obtain ⟨m, h1, h2, h3⟩ := memcpy_ok (s := s) (d := strBuf s.mem v) (a := src.toNat)
    (n := min (strCap s.mem v) size.toNat) (by omega) (by omega) (by unfold Apart; omega)
  rw [h1, Res.ok_bind, VM.wr_eq _ _ (by show _ < s.words; omega)]
  have hf1 : updW m (v / 2) (BitVec.ofNat 16 (min (strCap s.mem v) size.toNat)) (v / 2 + 1) =
      s.mem (v / 2 + 1) := by
    rw [updW_other _ _ (by omega)]
    exact field_of_bytes hev fun x _ _ => h3 x (by omega)
  have hf2 : updW m (v / 2) (BitVec.ofNat 16 (min (strCap s.mem v) size.toNat)) (v / 2 + 2) =
      s.mem (v / 2 + 2) := by
    rw [updW_other _ _ (by omega)]
    exact field_of_bytes hev fun x _ _ => h3 x (by omega)
  refine ⟨_, rfl, ?_, congrArg (fun w : Word => w.toNat) hf1,
    congrArg (fun w : Word => w.toNat % 4096) hf2, ?_⟩
  · rw [text_take]
    unfold strVal strBuf strLen
    rw [hf1, updW_same, BitVec.toNat_ofNat, Nat.mod_eq_of_lt (by omega)]
    apply text_congr
    intro i hi
    rw [byte_updW _ _ (by rw [hbuf]; omega), hbuf, h2 i hi]
  · intro x hx1 hx2
    rw [byte_updW _ _ (by omega), h3 x (by omega)]

theorem strCpy_same {s : VM} {src size d off : Word} (hv : StrVar s (d + off).toNat)
    (he : src.toNat = strBuf s.mem (d + off).toNat) : strCpy s src size d off = .ok s := by
  obtain ⟨hev, hf, hb, hpart⟩ := hv
  unfold strCpy
  simp only []
  generalize hV : (d + off).toNat = v at *
  rw [rdF_eq s hev (by omega), Res.ok_bind,
    show (v + 2) / 2 = v / 2 + 1 by omega, VM.rd_eq s (by omega), Res.ok_bind, if_neg]
  · rfl
  · rw [Classical.not_not]
    apply BitVec.eq_of_toNat_eq
    exact he.symm

/-! Alphabetical order. -/

theorem before_irrefl (a : List Byte) : ¬Before a a := by
  induction a with
  | nil => intro h; cases h
  | cons x t ih =>
    intro h
    cases h with
    | head _ _ _ _ h => omega
    | tail _ _ _ h => exact ih h

theorem before_total (a : List Byte) : ∀ b, a = b ∨ Before a b ∨ Before b a := by
  induction a with
  | nil =>
    intro b
    cases b with
    | nil => exact .inl rfl
    | cons y t => exact .inr (.inl (.nil y t))
  | cons x s ih =>
    intro b
    cases b with
    | nil => exact .inr (.inr (.nil x s))
    | cons y t =>
      by_cases h1 : x.toNat < y.toNat
      · exact .inr (.inl (.head _ _ _ _ h1))
      · by_cases h2 : y.toNat < x.toNat
        · exact .inr (.inr (.head _ _ _ _ h2))
        · have : x = y := BitVec.eq_of_toNat_eq (by omega)
          subst this
          rcases ih t with h | h | h
          · exact .inl (by rw [h])
          · exact .inr (.inl (.tail _ _ _ h))
          · exact .inr (.inr (.tail _ _ _ h))

theorem before_trans {a b c : List Byte} (h1 : Before a b) : Before b c → Before a c := by
  intro h2
  induction h1 generalizing c with
  | nil y t => cases h2 <;> exact .nil _ _
  | head x y s t h =>
    cases h2 with
    | head _ z _ u h' => exact .head _ _ _ _ (by omega)
    | tail _ _ u _ => exact .head _ _ _ _ h
  | tail x s t _ ih =>
    cases h2 with
    | head _ z _ u h' => exact .head _ _ _ _ h'
    | tail _ _ u h' => exact .tail _ _ _ (ih h')

theorem before_asymm {a b : List Byte} (h1 : Before a b) : ¬Before b a :=
  fun h2 => before_irrefl a (before_trans h1 h2)

/-- Comparing the common length decides, unless the shorter string is a beginning. -/
theorem before_take (a : List Byte) : ∀ b : List Byte, Before a b ↔
    Before (a.take (min a.length b.length)) (b.take (min a.length b.length)) ∨
    (a.take (min a.length b.length) = b.take (min a.length b.length) ∧ a.length < b.length) := by
  induction a with
  | nil =>
    intro b
    cases b with
    | nil => simp [show ¬Before [] [] from before_irrefl []]
    | cons y t =>
      simp only [List.length_nil, List.length_cons, Nat.zero_min, List.take_zero]
      exact ⟨fun _ => .inr (by simp), fun _ => .nil _ _⟩
  | cons x s ih =>
    intro b
    cases b with
    | nil =>
      simp only [List.length_nil, Nat.min_zero, List.take_zero]
      constructor
      · intro h; cases h
      · rintro (h | ⟨_, h⟩)
        · cases h
        · omega
    | cons y t =>
      rw [List.length_cons, List.length_cons, Nat.add_min_add_right, List.take_succ_cons,
        List.take_succ_cons]
      constructor
      · intro h
        cases h with
        | head _ _ _ _ h => exact .inl (.head _ _ _ _ h)
        | tail _ _ _ h =>
          rcases (ih t).1 h with h | ⟨h, h'⟩
          · exact .inl (.tail _ _ _ h)
          · exact .inr ⟨by rw [h], by omega⟩
      · rintro (h | ⟨h, h'⟩)
        · cases h with
          | head _ _ _ _ h => exact .head _ _ _ _ h
          | tail _ _ _ h => exact .tail _ _ _ ((ih t).2 (.inl h))
        · simp only [List.cons.injEq] at h
          obtain ⟨rfl, h⟩ := h
          exact .tail _ _ _ ((ih t).2 (.inr ⟨h, by omega⟩))

/-- The number `STRCMP` computes from the strings. -/
def cmpInt (f : List Byte → List Byte → Int) (a b : List Byte) : Int :=
  let r := f (a.take (min a.length b.length)) (b.take (min a.length b.length))
  if a.length < b.length then (if r = 0 then -1 else r)
  else if a.length > b.length then (if r = 0 then 1 else r) else r

theorem cmpInt_spec {f : List Byte → List Byte → Int} (hf : GoodMemcmp f) (a b : List Byte) :
    (cmpInt f a b < 0 ↔ Before a b) ∧ (0 < cmpInt f a b ↔ Before b a) ∧
    -32768 ≤ cmpInt f a b ∧ cmpInt f a b ≤ 32767 := by
  have hl : (a.take (min a.length b.length)).length = (b.take (min a.length b.length)).length := by
    simp only [List.length_take]; omega
  have h1 := hf.neg _ _ hl
  have h2 := hf.pos _ _ hl
  have h3 := hf.small (a.take (min a.length b.length)) (b.take (min a.length b.length))
  have b1 := before_take a b
  have b2 := before_take b a
  rw [Nat.min_comm b.length a.length] at b2
  have tot := before_total (a.take (min a.length b.length)) (b.take (min a.length b.length))
  have eqc := @before_irrefl (b.take (min a.length b.length))
  unfold cmpInt
  simp only
  generalize f (a.take (min a.length b.length)) (b.take (min a.length b.length)) = r at *
  generalize a.take (min a.length b.length) = p at *
  generalize b.take (min a.length b.length) = q at *
  have e0 : r = 0 ↔ p = q := by
    constructor
    · intro hr
      rcases tot with h | h | h
      · exact h
      · have := h1.2 h; omega
      · have := h2.2 h; omega
    · rintro rfl
      rcases Int.lt_trichotomy r 0 with h | h | h
      · exact absurd (h1.1 h) eqc
      · exact h
      · exact absurd (h2.1 h) eqc
  rw [b1, b2, ← h1, ← h2, ← e0, show (q = p ↔ p = q) from eq_comm, ← e0]
  refine ⟨?_, ?_, ?_, ?_⟩ <;> split <;> (try split) <;> (try split) <;> omega

/-! C strings and searching. -/

theorem cString_eq (s : VM) (k : Nat) : ∀ (fuel a : Nat), k < fuel → a + k < 2 * s.words →
    (∀ i < k, byte s.mem (a + i) ≠ 0#8) → byte s.mem (a + k) = 0#8 →
    cString s fuel a = .ok (text s.mem a k) := by
  induction k with
  | zero =>
    intro fuel a h1 h2 h3 h4
    cases fuel with
    | zero => omega
    | succ fuel =>
      rw [cString, rdB_eq s (by omega), Res.ok_bind, if_pos (by exact h4)]; rfl
  | succ k ih =>
    intro fuel a h1 h2 h3 h4
    cases fuel with
    | zero => omega
    | succ fuel =>
      rw [cString, rdB_eq s (by omega), Res.ok_bind, if_neg (by exact h3 0 (by omega)),
        ih fuel (a + 1) (by omega) (by omega)
          (fun i hi => by rw [show a + 1 + i = a + (i + 1) by omega]; exact h3 _ (by omega))
          (by rw [show a + 1 + k = a + (k + 1) by omega]; exact h4), text_succ]
      rfl

theorem occurs_zero {n h : List Byte} : n.isPrefixOf h = true ↔ Occurs n h 0 := by
  rw [List.isPrefixOf_iff_prefix, List.prefix_iff_eq_take]
  unfold Occurs
  constructor
  · intro e
    refine ⟨?_, ?_⟩
    · have := congrArg List.length e
      rw [List.length_take] at this; omega
    · rw [List.drop_zero]; exact e.symm
  · rintro ⟨_, e⟩
    rw [List.drop_zero] at e; exact e.symm

theorem occurs_succ {n t : List Byte} {x : Byte} {i : Nat} :
    Occurs n (x :: t) (i + 1) ↔ Occurs n t i := by
  unfold Occurs
  rw [List.drop_succ_cons, List.length_cons]
  constructor
  · rintro ⟨a, b⟩; exact ⟨by omega, b⟩
  · rintro ⟨a, b⟩; exact ⟨by omega, b⟩

theorem strstr_spec (n h : List Byte) :
    (∀ i, strstr h n = some i → Occurs n h i ∧ ∀ j < i, ¬Occurs n h j) ∧
    (strstr h n = none → ∀ j, ¬Occurs n h j) := by
  induction h with
  | nil =>
    unfold strstr
    split
    · rename_i hp
      refine ⟨fun i hi => ?_, fun h => by simp at h⟩
      simp only [Option.some.injEq] at hi
      subst hi
      exact ⟨occurs_zero.1 hp, fun j hj => by omega⟩
    · rename_i hp
      refine ⟨fun i hi => by simp at hi, fun _ j hj => ?_⟩
      have h1 := hj.1
      simp only [List.length_nil] at h1
      have : j = 0 := by omega
      subst this
      exact hp (occurs_zero.2 hj)
  | cons x t ih =>
    unfold strstr
    split
    · rename_i hp
      refine ⟨fun i hi => ?_, fun h => by simp at h⟩
      simp only [Option.some.injEq] at hi
      subst hi
      exact ⟨occurs_zero.1 hp, fun j hj => by omega⟩
    · rename_i hp
      simp only
      refine ⟨fun i hi => ?_, fun hn j hj => ?_⟩
      · rw [Option.map_eq_some_iff] at hi
        obtain ⟨k, hk, rfl⟩ := hi
        obtain ⟨a, b⟩ := ih.1 k hk
        refine ⟨occurs_succ.2 a, fun j hj => ?_⟩
        cases j with
        | zero => exact fun hc => hp (occurs_zero.2 hc)
        | succ j => exact fun hc => b j (by omega) (occurs_succ.1 hc)
      · rw [Option.map_eq_none_iff] at hn
        cases j with
        | zero => exact hp (occurs_zero.2 hj)
        | succ j => exact ih.2 hn j (occurs_succ.1 hj)

theorem occurs_drop {n h : List Byte} {k i : Nat} (hk : k ≤ h.length) :
    Occurs n (h.drop k) i ↔ Occurs n h (k + i) := by
  unfold Occurs
  rw [List.drop_drop, List.length_drop]
  constructor
  · rintro ⟨a, b⟩; exact ⟨by omega, b⟩
  · rintro ⟨a, b⟩; exact ⟨by omega, b⟩

theorem text_drop (m : Nat → Word) (a n k : Nat) :
    (text m a n).drop k = text m (a + k) (n - k) := by
  apply List.ext_getElem
  · simp [text]
  · intro i h1 h2
    rw [List.getElem_drop, text_getElem, text_getElem]; congr 1; omega

/-- A C string copy is made when there is room. -/
theorem mkCString_ok {s : VM} {src size : Nat} {keep : Bool}
    (hroom : s.csp.toNat + size + 1 < s.spb.toNat) (hmem : s.spb.toNat ≤ 2 * s.words)
    (hs : src + size ≤ 2 * s.words) (hap : Apart s.csp.toNat (size + 1) src size) :
    ∃ m, mkCString s src size keep = .ok (some s.csp.toNat, { s with
        mem := m
        csp := if keep then s.csp + BitVec.ofNat 16 (size + 1) else s.csp }) ∧
      (∀ i < size, byte m (s.csp.toNat + i) = byte s.mem (src + i)) ∧
      byte m (s.csp.toNat + size) = 0#8 ∧
      (∀ x, (x < s.csp.toNat ∨ s.csp.toNat + size + 1 ≤ x) → byte m x = byte s.mem x) := by
  unfold Apart at hap
  rw [mkCString, if_neg (by omega)]
  cases keep with
  | true =>
    obtain ⟨m, h1, h2, h3⟩ := memcpy_ok
      (s := { s with csp := s.csp + BitVec.ofNat 16 (size + 1) }) (d := s.csp.toNat) (a := src)
      (n := size) (by show _ ≤ 2 * s.words; omega) hs (by unfold Apart; omega)
    simp only [if_true]
    rw [h1, Res.ok_bind, wrB_eq _ _ (by show _ < 2 * s.words; omega), Res.ok_bind]
    refine ⟨_, rfl, fun i hi => ?_, ?_, fun x hx => ?_⟩
    · rw [byte_updB, if_neg (by omega)]; exact h2 i hi
    · rw [byte_updB, if_pos rfl]
    · rw [byte_updB, if_neg (by omega)]; exact h3 x (by omega)
  | false =>
    obtain ⟨m, h1, h2, h3⟩ := memcpy_ok (s := s) (d := s.csp.toNat) (a := src)
      (n := size) (by omega) hs (by unfold Apart; omega)
    simp only [Bool.false_eq_true, if_false]
    rw [h1, Res.ok_bind, wrB_eq _ _ (by show _ < 2 * s.words; omega), Res.ok_bind]
    refine ⟨_, rfl, fun i hi => ?_, ?_, fun x hx => ?_⟩
    · rw [byte_updB, if_neg (by omega)]; exact h2 i hi
    · rw [byte_updB, if_pos rfl]
    · rw [byte_updB, if_neg (by omega)]; exact h3 x (by omega)

theorem pushK (s : VM) (k : Nat) (w w' r : Word) (hw : w.toNat = 2 * (k + 1)) (hw' : w' + 2#16 = w)
    (h1 : k + 1 ≤ s.top) (h2 : s.top < s.words) (m : Nat → Word) :
    ({ s with sp := s.sp - w, mem := m } : VM).push r =
      .ok { s with sp := s.sp - w', mem := updW m (s.top - k) r } := by
  have ht := topK s (k + 1) w hw h1 m
  have htop := VM.top_lt s
  rw [VM.push_eq _ _ (by rw [ht]; show _ < s.words; omega) (by rw [ht]; omega)]
  have : s.sp - w + 2#16 = s.sp - w' := by subst hw'; bv_omega
  simp only [ht, this, show s.top - (k + 1) + 1 = s.top - k by omega]

end Pas.Str
