import Verif.Lemmas.PoffBytes
import Verif.Model.PoffFile
/-! Byte swapping of fields, records and tables. -/
namespace Pas.Poff
open Pas.Spec

theorem len4 {m : List Byte} (h : m.length = 4) : ∃ a b c d, m = [a, b, c, d] := by
  match m, h with
  | [a, b, c, d], _ => exact ⟨a, b, c, d, rfl⟩

theorem len2 {m : List Byte} (h : m.length = 2) : ∃ a b, m = [a, b] := by
  match m, h with
  | [a, b], _ => exact ⟨a, b, rfl⟩

theorem len4_le32 {m : List Byte} (h : m.length = 4) : ∃ v, m = le32 v := by
  obtain ⟨a, b, c, d, rfl⟩ := len4 h
  exact ⟨_, (le32_of_bytes a b c d).symm⟩

theorem len2_le16 {m : List Byte} (h : m.length = 2) : ∃ v, m = le16 v := by
  obtain ⟨a, b, rfl⟩ := len2 h
  exact ⟨_, (le16_of_bytes a b).symm⟩

/-- Swapping a 32-bit field reverses its four bytes. -/
theorem swapField_wide (alloc : Nat) (pre m post : List Byte) (i : Nat) (hi : pre.length = i)
    (hm : m.length = 4) :
    swapField alloc (pre ++ (m ++ post)) i true = .ok (pre ++ (m.reverse ++ post)) := by
  subst hi
  obtain ⟨v, rfl⟩ := len4_le32 hm
  have h : pre.length + 4 ≤ (pre ++ (le32 v ++ post)).length := by simp
  simp only [swapField, if_true]
  rw [if_pos h, rd32_le32 pre v post _ rfl, le32_swap, le32_reverse]
  have h1 : (pre ++ (le32 v ++ post)).take pre.length = pre := by simp
  have h2 : (pre ++ (le32 v ++ post)).drop (pre.length + 4) = post := by
    rw [← List.drop_drop, List.drop_left]; rfl
  rw [h1, h2]; simp

/-- Swapping a 16-bit field reverses its two bytes. -/
theorem swapField_narrow (alloc : Nat) (pre m post : List Byte) (i : Nat) (hi : pre.length = i)
    (hm : m.length = 2) :
    swapField alloc (pre ++ (m ++ post)) i false = .ok (pre ++ (m.reverse ++ post)) := by
  subst hi
  obtain ⟨v, rfl⟩ := len2_le16 hm
  have h : pre.length + 2 ≤ (pre ++ (le16 v ++ post)).length := by simp
  simp only [swapField, Bool.false_eq_true, if_false]
  rw [if_pos h, rd16_le16 pre v post _ rfl, le16_swap, le16_reverse]
  have h1 : (pre ++ (le16 v ++ post)).take pre.length = pre := by simp
  have h2 : (pre ++ (le16 v ++ post)).drop (pre.length + 2) = post := by
    rw [← List.drop_drop, List.drop_left]; rfl
  rw [h1, h2]; simp

/-- A symbol in the other byte order. -/
def symE (e : List Byte) : List Byte :=
  e.take 4 ++ (((e.drop 4).take 4).reverse ++ (((e.drop 8).take 4).reverse ++ (e.drop 12).reverse))
/-- A relocation in the other byte order. -/
def relE (e : List Byte) : List Byte := (e.take 4).reverse ++ (e.drop 4).reverse
/-- A line number record in the other byte order. -/
def lineE (e : List Byte) : List Byte :=
  (e.take 2).reverse ++ (((e.drop 2).take 2).reverse ++ (e.drop 4).reverse)

/-- Record layouts: swapping a record of `ent` bytes turns it into `E` of it, and twice
gives it back. -/
structure Layout (fs : List (Nat × Bool)) (ent : Nat) (E : List Byte → List Byte) : Prop where
  pos : 0 < ent
  rec_eq : ∀ alloc (pre e post : List Byte), e.length = ent →
    swapRec alloc fs pre.length (pre ++ (e ++ post)) = .ok (pre ++ (E e ++ post))
  len : ∀ e, e.length = ent → (E e).length = ent
  inv : ∀ e, e.length = ent → E (E e) = e

theorem split_sym {e : List Byte} (h : e.length = 16) :
    ∃ a b c d : List Byte, a.length = 4 ∧ b.length = 4 ∧ c.length = 4 ∧ d.length = 4 ∧
      e = a ++ (b ++ (c ++ d)) := by
  refine ⟨e.take 4, (e.drop 4).take 4, (e.drop 8).take 4, e.drop 12, ?_, ?_, ?_, ?_, ?_⟩
  all_goals try (simp; omega)
  rw [← List.drop_drop (i := 4) (j := 8)]
  rw [List.take_append_drop, ← List.drop_drop (i := 4) (j := 4), List.take_append_drop,
    List.take_append_drop]

theorem symE_split {a b c d : List Byte} (ha : a.length = 4) (hb : b.length = 4) (hc : c.length = 4) :
    symE (a ++ (b ++ (c ++ d))) = a ++ (b.reverse ++ (c.reverse ++ d.reverse)) := by
  have h4 : (a ++ (b ++ (c ++ d))).drop 4 = b ++ (c ++ d) := by
    rw [← ha, List.drop_left]
  have h8 : (a ++ (b ++ (c ++ d))).drop 8 = c ++ d := by
    rw [show (8 : Nat) = 4 + 4 from rfl, ← List.drop_drop, h4, ← hb, List.drop_left]
  have h12 : (a ++ (b ++ (c ++ d))).drop 12 = d := by
    rw [show (12 : Nat) = 8 + 4 from rfl, ← List.drop_drop, h8, ← hc, List.drop_left]
  rw [symE, h4, h8, h12]
  have t1 : (a ++ (b ++ (c ++ d))).take 4 = a := by rw [← ha, List.take_left]
  have t2 : (b ++ (c ++ d)).take 4 = b := by rw [← hb, List.take_left]
  have t3 : (c ++ d).take 4 = c := by rw [← hc, List.take_left]
  rw [t1, t2, t3]

theorem symLayout : Layout symFields 16 symE := by
  refine ⟨by decide, ?_, ?_, ?_⟩
  · intro alloc pre e post h
    obtain ⟨a, b, c, d, ha, hb, hc, hd, rfl⟩ := split_sym h
    rw [symE_split ha hb hc]
    have e1 : pre ++ (a ++ (b ++ (c ++ d)) ++ post) = (pre ++ a) ++ (b ++ (c ++ (d ++ post))) := by simp
    have e2 : (pre ++ a) ++ (b.reverse ++ (c ++ (d ++ post)))
        = (pre ++ a ++ b.reverse) ++ (c ++ (d ++ post)) := by simp
    have e3 : (pre ++ a ++ b.reverse) ++ (c.reverse ++ (d ++ post))
        = (pre ++ a ++ b.reverse ++ c.reverse) ++ (d ++ post) := by simp
    simp only [swapRec, symFields]
    rw [e1, swapField_wide alloc (pre ++ a) b _ _ (by simp; omega) hb]
    simp only [Res.ok_bind]
    rw [e2, swapField_wide alloc (pre ++ a ++ b.reverse) c _ _ (by simp; omega) hc]
    simp only [Res.ok_bind]
    rw [e3, swapField_wide alloc (pre ++ a ++ b.reverse ++ c.reverse) d _ _ (by simp; omega) hd]
    simp
  · intro e h; simp [symE, h]
  · intro e h
    obtain ⟨a, b, c, d, ha, hb, hc, hd, rfl⟩ := split_sym h
    rw [symE_split ha hb hc, symE_split ha (by simpa) (by simpa)]; simp

theorem split_rel {e : List Byte} (h : e.length = 8) :
    ∃ a b : List Byte, a.length = 4 ∧ b.length = 4 ∧ e = a ++ b :=
  ⟨e.take 4, e.drop 4, by simp; omega, by simp; omega, by simp⟩

theorem relE_split {a b : List Byte} (ha : a.length = 4) : relE (a ++ b) = a.reverse ++ b.reverse := by
  rw [relE, ← ha, List.take_left, List.drop_left]

theorem relLayout : Layout relFields 8 relE := by
  refine ⟨by decide, ?_, ?_, ?_⟩
  · intro alloc pre e post h
    obtain ⟨a, b, ha, hb, rfl⟩ := split_rel h
    rw [relE_split ha]
    have e1 : pre ++ (a ++ b ++ post) = pre ++ (a ++ (b ++ post)) := by simp
    have e2 : pre ++ (a.reverse ++ (b ++ post)) = (pre ++ a.reverse) ++ (b ++ post) := by simp
    simp only [swapRec, relFields]
    rw [e1, swapField_wide alloc pre a _ _ (by simp) ha]
    simp only [Res.ok_bind]
    rw [e2, swapField_wide alloc (pre ++ a.reverse) b _ _ (by simp; omega) hb]
    simp
  · intro e h; simp [relE, h]
  · intro e h
    obtain ⟨a, b, ha, hb, rfl⟩ := split_rel h
    rw [relE_split ha, relE_split (by simpa)]; simp

theorem split_line {e : List Byte} (h : e.length = 8) :
    ∃ a b c : List Byte, a.length = 2 ∧ b.length = 2 ∧ c.length = 4 ∧ e = a ++ (b ++ c) := by
  refine ⟨e.take 2, (e.drop 2).take 2, e.drop 4, by simp; omega, by simp; omega, by simp; omega, ?_⟩
  rw [← List.drop_drop (i := 2) (j := 2), List.take_append_drop, List.take_append_drop]

theorem lineE_split {a b c : List Byte} (ha : a.length = 2) (hb : b.length = 2) :
    lineE (a ++ (b ++ c)) = a.reverse ++ (b.reverse ++ c.reverse) := by
  have h2 : (a ++ (b ++ c)).drop 2 = b ++ c := by rw [← ha, List.drop_left]
  have h4 : (a ++ (b ++ c)).drop 4 = c := by
    rw [show (4 : Nat) = 2 + 2 from rfl, ← List.drop_drop, h2, ← hb, List.drop_left]
  have t1 : (a ++ (b ++ c)).take 2 = a := by rw [← ha, List.take_left]
  have t2 : (b ++ c).take 2 = b := by rw [← hb, List.take_left]
  rw [lineE, h2, h4, t1, t2]

theorem lineLayout : Layout lineFields 8 lineE := by
  refine ⟨by decide, ?_, ?_, ?_⟩
  · intro alloc pre e post h
    obtain ⟨a, b, c, ha, hb, hc, rfl⟩ := split_line h
    rw [lineE_split ha hb]
    have e1 : pre ++ (a ++ (b ++ c) ++ post) = pre ++ (a ++ (b ++ (c ++ post))) := by simp
    have e2 : pre ++ (a.reverse ++ (b ++ (c ++ post)))
        = (pre ++ a.reverse) ++ (b ++ (c ++ post)) := by simp
    have e3 : (pre ++ a.reverse) ++ (b.reverse ++ (c ++ post))
        = (pre ++ a.reverse ++ b.reverse) ++ (c ++ post) := by simp
    simp only [swapRec, lineFields]
    rw [e1, swapField_narrow alloc pre a _ _ (by simp) ha]
    simp only [Res.ok_bind]
    rw [e2, swapField_narrow alloc (pre ++ a.reverse) b _ _ (by simp; omega) hb]
    simp only [Res.ok_bind]
    rw [e3, swapField_wide alloc (pre ++ a.reverse ++ b.reverse) c _ _ (by simp; omega) hc]
    simp
  · intro e h; simp [lineE, h]
  · intro e h
    obtain ⟨a, b, c, ha, hb, hc, rfl⟩ := split_line h
    rw [lineE_split ha hb, lineE_split (by simpa) (by simpa)]; simp

theorem flatten_length {es : List (List Byte)} {n : Nat} (h : ∀ e ∈ es, e.length = n) :
    es.flatten.length = es.length * n := by
  induction es with
  | nil => simp
  | cons e es ih =>
    simp only [List.flatten_cons, List.length_append, List.length_cons]
    rw [ih (fun x hx => h x (by simp [hx])), h e (by simp), Nat.succ_mul]; omega

/-- Swapping a whole table swaps each record. -/
theorem swapLoop_spec {fs ent E} (L : Layout fs ent E) (alloc : Nat) :
    ∀ (es : List (List Byte)) (pre : List Byte) (size fuel : Nat),
      (∀ e ∈ es, e.length = ent) → size = (pre ++ es.flatten).length → es.length < fuel →
      swapLoop alloc fs ent size fuel pre.length (pre ++ es.flatten)
        = .ok (pre ++ (es.map E).flatten) := by
  intro es
  induction es with
  | nil =>
    intro pre size fuel _ hs hf
    cases fuel with
    | zero => simp at hf
    | succ fuel => simp [swapLoop, hs]
  | cons e es ih =>
    intro pre size fuel he hs hf
    cases fuel with
    | zero => simp at hf
    | succ fuel =>
      have hel := he e (by simp)
      have hlt : pre.length < size := by
        rw [hs]; simp [hel]; have := L.pos; omega
      rw [swapLoop, if_pos hlt]
      have e1 : pre ++ (e :: es).flatten = pre ++ (e ++ es.flatten) := by simp
      rw [e1, L.rec_eq alloc pre e _ hel]
      simp only [Res.ok_bind]
      have := ih (pre ++ E e) size fuel (fun x hx => he x (by simp [hx]))
        (by rw [hs]; simp [L.len e hel, hel]) (by simp at hf; omega)
      rw [List.length_append, L.len e hel, List.append_assoc] at this
      rw [this]; simp

/-- Cutting a table into records. -/
theorem chunks {ent : Nat} :
    ∀ (n : Nat) (d : List Byte), d.length = n * ent →
      ∃ es : List (List Byte), d = es.flatten ∧ es.length = n ∧ ∀ e ∈ es, e.length = ent := by
  intro n
  induction n with
  | zero => intro d h; exact ⟨[], by simpa using h, rfl, by simp⟩
  | succ n ih =>
    intro d h
    rw [Nat.succ_mul] at h
    obtain ⟨es, h1, h2, h3⟩ := ih (d.drop ent) (by simp; omega)
    refine ⟨d.take ent :: es, ?_, by simp [h2], ?_⟩
    · simp only [List.flatten_cons]; rw [← h1]; simp
    · intro e he
      rcases List.mem_cons.mp he with rfl | he
      · simp; omega
      · exact h3 e he

/-- Swapping a table of complete records is defined, keeps its length, and swapping the
result gives the table back. -/
theorem swapLoop_twice {fs ent E} (L : Layout fs ent E) (d : List Byte)
    (hd : d.length % ent = 0) :
    ∃ d', (∀ alloc, swapLoop alloc fs ent d.length (d.length + 1) 0 d = .ok d') ∧
      d'.length = d.length ∧
      ∀ alloc, swapLoop alloc fs ent d.length (d.length + 1) 0 d' = .ok d := by
  have hn : d.length = d.length / ent * ent := by
    have := Nat.div_add_mod d.length ent
    rw [Nat.mul_comm]; omega
  obtain ⟨es, h1, h2, h3⟩ := chunks _ d hn
  have hlen : (es.map E).flatten.length = es.flatten.length := by
    rw [flatten_length (n := ent), flatten_length (n := ent) h3]
    · simp
    · intro e he
      obtain ⟨x, hx, rfl⟩ := List.mem_map.mp he
      exact L.len x (h3 x hx)
  have hcount : es.length < d.length + 1 := by
    rw [h2]; have := Nat.div_le_self d.length ent; omega
  refine ⟨(es.map E).flatten, ?_, ?_, ?_⟩
  · intro alloc
    have := swapLoop_spec L alloc es [] d.length (d.length + 1) h3 (by simp [← h1]) hcount
    simpa [← h1] using this
  · rw [hlen, ← h1]
  · intro alloc
    have := swapLoop_spec L alloc (es.map E) [] d.length (d.length + 1)
      (by intro e he
          obtain ⟨x, hx, rfl⟩ := List.mem_map.mp he
          exact L.len x (h3 x hx))
      (by rw [List.nil_append, hlen, ← h1]) (by simpa using hcount)
    simp only [List.length_nil, List.nil_append, List.map_map] at this
    rw [this]
    have hid : es.map (E ∘ E) = es := by
      conv => rhs; rw [← List.map_id es]
      apply List.map_congr_left
      intro e he; exact L.inv e (h3 e he)
    rw [hid, ← h1]

end Pas.Poff
