import Verif.Lemmas.PoffBytes
/-! C40 (values) and C42: byte order conversion; debug function records. -/
namespace Pas.Props
open Pas.Poff Pas.Spec

/-- Swapping a 16-bit value twice gives it back, and one swap reverses its bytes. -/
theorem C40_swap16 (v : Word) :
    swap16 (swap16 v) = v ∧ le16 (swap16 v) = (le16 v).reverse ∧ le16 (swap16 v) = be16 v :=
  ⟨swap16_swap16 v, le16_swap v, le16_swap v⟩

/-- Swapping a 32-bit value twice gives it back, and one swap reverses its bytes. -/
theorem C40_swap32 (v : U32) :
    swap32 (swap32 v) = v ∧ le32 (swap32 v) = (le32 v).reverse ∧ le32 (swap32 v) = be32 v :=
  ⟨swap32_swap32 v, le32_swap v, le32_swap v⟩

example : swap16 0x1234#16 = 0x3412#16 ∧ swap32 0x12345678#32 = 0x78563412#32 := by decide

theorem debugImage_length (r : DebugFunc) : (debugImage r).length = 12 + 4 * r.args.length := by
  have : ∀ l : List U32, (l.flatMap le32).length = 4 * l.length := by
    intro l; induction l with
    | nil => rfl
    | cons a l ih => simp [List.flatMap_cons, ih]; omega
  simp [debugImage, this]; omega

theorem readArgs_spec :
    ∀ (args : List U32) (pre post : List Byte) (i : Nat), pre.length = i →
      readArgs (pre ++ (args.flatMap le32 ++ post)) i args.length = .ok args := by
  intro args
  induction args with
  | nil => intros; rfl
  | cons a args ih =>
    intro pre post i h
    have e : pre ++ ((a :: args).flatMap le32 ++ post) = pre ++ (le32 a ++ (args.flatMap le32 ++ post)) := by
      simp [List.flatMap_cons]
    have hl : ¬ (i + 4 > (pre ++ (le32 a ++ (args.flatMap le32 ++ post))).length) := by
      simp only [List.length_append, le32_length]; omega
    rw [e, List.length_cons, readArgs, if_neg hl, rd32_le32 pre a _ i h]
    have := ih (pre ++ le32 a) post (i + 4) (by simp [h])
    rw [List.append_assoc] at this
    rw [this]; rfl

theorem getDebug_spec (r : DebugFunc) (hr : r.args.length < 2 ^ 32) (pre post : List Byte) (i : Nat)
    (h : pre.length = i) (hne : r.args ≠ [] ∨ post ≠ []) :
    getDebug (pre ++ (debugImage r ++ post)) i
      = .ok (some (r, i + (debugImage r).length)) := by
  have hlen : ¬ (i + 12 ≥ (pre ++ (debugImage r ++ post)).length) := by
    simp only [List.length_append, debugImage_length]
    have : 0 < r.args.length ∨ 0 < post.length := by
      rcases hne with h | h
      · exact Or.inl (List.length_pos_iff.mpr h)
      · exact Or.inr (List.length_pos_iff.mpr h)
    omega
  rw [getDebug, if_neg hlen]
  have e0 : pre ++ (debugImage r ++ post) = pre ++ (le32 r.value ++ (le32 r.retsize ++
      (le32 (BitVec.ofNat 32 r.args.length) ++ (r.args.flatMap le32 ++ post)))) := by
    simp [debugImage]
  have e1 : pre ++ (debugImage r ++ post) = (pre ++ le32 r.value) ++ (le32 r.retsize ++
      (le32 (BitVec.ofNat 32 r.args.length) ++ (r.args.flatMap le32 ++ post))) := by
    simp [debugImage]
  have e2 : pre ++ (debugImage r ++ post) = (pre ++ le32 r.value ++ le32 r.retsize) ++
      (le32 (BitVec.ofNat 32 r.args.length) ++ (r.args.flatMap le32 ++ post)) := by
    simp [debugImage]
  have e3 : pre ++ (debugImage r ++ post) = (pre ++ le32 r.value ++ le32 r.retsize ++
      le32 (BitVec.ofNat 32 r.args.length)) ++ (r.args.flatMap le32 ++ post) := by
    simp [debugImage]
  have r0 : rd32 (pre ++ (debugImage r ++ post)) i = r.value := by
    rw [e0]; exact rd32_le32 _ _ _ _ h
  have r1 : rd32 (pre ++ (debugImage r ++ post)) (i + 4) = r.retsize := by
    rw [e1]; exact rd32_le32 _ _ _ _ (by simp [h])
  have r2 : rd32 (pre ++ (debugImage r ++ post)) (i + 8) = BitVec.ofNat 32 r.args.length := by
    rw [e2]; exact rd32_le32 _ _ _ _ (by simp [h])
  have hn : (BitVec.ofNat 32 r.args.length).toNat = r.args.length := by
    simp [Nat.mod_eq_of_lt hr]
  have r3 : readArgs (pre ++ (debugImage r ++ post)) (i + 12) r.args.length = .ok r.args := by
    rw [e3]; exact readArgs_spec _ _ _ _ (by simp [h])
  simp only [r0, r1, r2, hn, r3, Res.ok_bind, debugImage_length]
  have : i + 12 + r.args.length * 4 = i + (12 + 4 * r.args.length) := by omega
  rw [this]

/-- All images in order. -/
def imagesOf (rs : List DebugFunc) : List Byte := rs.flatMap debugImage

theorem debugLoop_spec :
    ∀ (rs : List DebugFunc) (pre tail : List Byte) (fuel : Nat),
      (∀ r ∈ rs, r.args.length < 2 ^ 32) → rs.length < fuel → tail.length ≤ 12 →
      (tail = [] → ∀ r, rs.getLast? = some r → r.args ≠ []) →
      debugLoop (pre ++ (imagesOf rs ++ tail)) fuel pre.length = .ok rs := by
  intro rs
  induction rs with
  | nil =>
    intro pre tail fuel _ hf ht _
    cases fuel with
    | zero => simp at hf
    | succ fuel =>
      have : pre.length + 12 ≥ (pre ++ (imagesOf [] ++ tail)).length := by
        simp [imagesOf]; omega
      simp only [debugLoop, getDebug, if_pos this, Res.ok_bind]
  | cons r rs ih =>
    intro pre tail fuel hn hf ht hl
    cases fuel with
    | zero => simp at hf
    | succ fuel =>
      have e : pre ++ (imagesOf (r :: rs) ++ tail) = pre ++ (debugImage r ++ (imagesOf rs ++ tail)) := by
        simp [imagesOf, List.flatMap_cons]
      have hne : r.args ≠ [] ∨ imagesOf rs ++ tail ≠ [] := by
        cases rs with
        | nil =>
          by_cases h : tail = []
          · exact Or.inl (hl h r (by simp))
          · exact Or.inr (by simp [imagesOf, h])
        | cons q rs =>
          refine Or.inr ?_
          intro h
          have := congrArg List.length h
          simp [imagesOf, List.flatMap_cons, debugImage_length] at this
      rw [e, debugLoop, getDebug_spec r (hn r (by simp)) pre _ _ rfl hne]
      have := ih (pre ++ debugImage r) tail fuel (fun q hq => hn q (by simp [hq]))
        (by simp at hf; omega) ht (by
          intro h q hq
          refine hl h q ?_
          cases rs with
          | nil => simp at hq
          | cons a rs => simpa using hq)
      rw [List.append_assoc, List.length_append] at this
      simp only [Res.ok_bind, this]

theorem addDebug_spec (t : DebugTab) (r : DebugFunc) (hr : r.args.length ≤ 189)
    (ht : t.data.length ≤ t.alloc) :
    ∃ t', addDebug t r = .ok t' ∧ t'.data = t.data ++ debugImage r ∧ t'.data.length ≤ t'.alloc := by
  have h0 : ∀ u : DebugTab, u = (if t.alloc = 0 then { data := [], alloc := 128 * 12 } else t) →
      u.data = t.data ∧ u.data.length ≤ u.alloc := by
    intro u hu
    by_cases ha : t.alloc = 0
    · rw [if_pos ha] at hu
      have : t.data = [] := List.length_eq_zero_iff.mp (by omega)
      subst hu; simp [this]
    · rw [if_neg ha] at hu; subst hu; exact ⟨rfl, ht⟩
  unfold addDebug debugRoom
  simp only []
  generalize hu : (if t.alloc = 0 then ({ data := [], alloc := 128 * 12 } : DebugTab) else t) = u
  obtain ⟨h1, h2⟩ := h0 u hu.symm
  by_cases hg : u.data.length + (12 + r.args.length * 4) > u.alloc
  · simp only [if_pos hg]
    rw [if_neg (by omega)]
    refine ⟨_, rfl, by simp [h1], ?_⟩
    simp only [List.length_append, debugImage_length]; omega
  · simp only [if_neg hg]
    refine ⟨_, rfl, by simp [h1], ?_⟩
    simp only [List.length_append, debugImage_length]; omega

theorem addDebugs_spec :
    ∀ (rs : List DebugFunc) (t : DebugTab), (∀ r ∈ rs, r.args.length ≤ 189) →
      t.data.length ≤ t.alloc →
      ∃ t', addDebugs t rs = .ok t' ∧ t'.data = t.data ++ imagesOf rs := by
  intro rs
  induction rs with
  | nil => intro t _ _; exact ⟨t, rfl, by simp [imagesOf]⟩
  | cons r rs ih =>
    intro t hr ht
    obtain ⟨t1, h1, h2, h3⟩ := addDebug_spec t r (hr r (by simp)) ht
    obtain ⟨t2, h4, h5⟩ := ih t1 (fun q hq => hr q (by simp [hq])) h3
    refine ⟨t2, by simp [addDebugs, h1, h4], ?_⟩
    rw [h5, h2]; simp [imagesOf, List.flatMap_cons]

theorem imagesOf_length (rs : List DebugFunc) : rs.length ≤ (imagesOf rs).length := by
  induction rs with
  | nil => simp
  | cons r rs ih => simp [imagesOf, List.flatMap_cons, debugImage_length] at *; omega

/-- Records stored in a new debug section are all returned, in order, by iterating over
it, provided each has at most 189 parameters and the last one has a parameter.  Missing:
a last record without parameters is lost (`C42_violation`), and a record with many
parameters overruns the buffer (`C42_violation_overrun`). -/
theorem C42_readback_partial (rs : List DebugFunc) (hn : ∀ r ∈ rs, r.args.length ≤ 189)
    (hl : ∀ r, rs.getLast? = some r → r.args ≠ []) :
    ∃ t, addDebugs ⟨[], 0⟩ rs = .ok t ∧ readDebug t.data = .ok rs := by
  obtain ⟨t, h1, h2⟩ := addDebugs_spec rs ⟨[], 0⟩ hn (by simp)
  refine ⟨t, h1, ?_⟩
  have := debugLoop_spec rs [] [] ((imagesOf rs).length + 1)
    (fun r hr => Nat.lt_of_le_of_lt (hn r hr) (by decide))
    (by have := imagesOf_length rs; omega) (by simp) (fun _ => hl)
  rw [h2]
  simpa [readDebug] using this

example : ∃ t, addDebugs ⟨[], 0⟩ [⟨5, 2, []⟩, ⟨9, 0, [2, 4]⟩] = .ok t ∧
    readDebug t.data = .ok [⟨5, 2, []⟩, ⟨9, 0, [2, 4]⟩] := ⟨_, rfl, by decide⟩

/-- Violation of C42: if the last record stored has no parameters, iteration returns all
records but that one. -/
theorem C42_violation (rs : List DebugFunc) (r : DebugFunc)
    (hn : ∀ q ∈ rs, q.args.length ≤ 189) (hr : r.args = []) :
    ∃ t, addDebugs ⟨[], 0⟩ (rs ++ [r]) = .ok t ∧ readDebug t.data = .ok rs ∧
      rs ≠ rs ++ [r] := by
  obtain ⟨t, h1, h2⟩ := addDebugs_spec (rs ++ [r]) ⟨[], 0⟩
    (by intro q hq; rcases List.mem_append.mp hq with h | h
        · exact hn q h
        · simp at h; simp [h, hr]) (by simp)
  refine ⟨t, h1, ?_, by simp⟩
  have e : imagesOf (rs ++ [r]) = imagesOf rs ++ debugImage r := by simp [imagesOf]
  have := debugLoop_spec rs [] (debugImage r) ((imagesOf (rs ++ [r])).length + 1)
    (fun q hq => Nat.lt_of_le_of_lt (hn q hq) (by decide))
    (by rw [e]; have := imagesOf_length rs; simp; omega)
    (by simp [debugImage_length, hr])
    (by intro h; have := congrArg List.length h; simp [debugImage_length] at this)
  rw [h2]
  simpa [readDebug, e] using this

/-- Violation of C42: storing a record with more parameters than one growth step has room
for writes beyond the buffer. -/
theorem C42_violation_overrun (r : DebugFunc) (h : 573 < r.args.length) :
    addDebug ⟨[], 0⟩ r = .ub := by
  unfold addDebug debugRoom
  have h1 : (([] : List Byte).length + (12 + r.args.length * 4) > 128 * 12) := by simp; omega
  have h2 : (([] : List Byte).length + (12 + r.args.length * 4) > 128 * 12 + 64 * 12) := by simp; omega
  simp only [if_true, if_pos h1, if_pos h2]

example : 573 < (⟨1, 0, List.replicate 600 2⟩ : DebugFunc).args.length := by
  rw [List.length_replicate]; omega

end Pas.Props
