import Verif.Lemmas.ConstExpr

/-! Lemmas about set constants. -/
namespace Pas.KL
open Pas.Src
open Pas.Comp (Tk)
open Pas.Const

theorem lead_bit : ∀ k < 16, ∀ i < 16,
    ((0xffff#16 <<< k : Word).getLsbD i = true ↔ k ≤ i) := by decide +kernel

theorem tail_bit : ∀ k < 16, ∀ i < 16,
    ((0xffff#16 >>> (15 - k) : Word).getLsbD i = true ↔ i ≤ k) := by decide +kernel

theorem one_bit : ∀ k < 16, ∀ i < 16, ((1#16 <<< k : Word).getLsbD i = true ↔ i = k) := by
  decide +kernel

theorem ones_bit : ∀ i < 16, (0xffff#16 : Word).getLsbD i = true := by decide +kernel

/-- The bit `b` of four words. -/
def Bit4 (set : List Word) (b : Nat) : Prop :=
  ∃ w, set[b / 16]? = some w ∧ w.getLsbD (b % 16) = true

theorem putWord_ok {s : KS} {i : Nat} (hi : i < 4) (hs : s.set.length = 4) (f : Word → Word) :
    ∃ w, s.set[i]? = some w ∧ putWord s i f = { s with set := s.set.set i (f w) } := by
  have h : i < s.set.length := by omega
  refine ⟨s.set[i], List.getElem?_eq_getElem h, ?_⟩
  unfold putWord
  rw [List.getElem?_eq_getElem h]

theorem bit4_set {set : List Word} {i : Nat} (hi : i < set.length) (w : Word) (b : Nat) :
    Bit4 (set.set i w) b ↔ if b / 16 = i then w.getLsbD (b % 16) = true else Bit4 set b := by
  unfold Bit4
  split
  · rename_i h
    subst h
    simp [List.getElem?_set, hi]
  · rename_i h
    rw [List.getElem?_set_ne (by omega)]

/-- A range of bits is put into a set. -/
theorem addBits_ok {s : KS} {a b m : Nat} (hs : s.set.length = 4)
    (hg : (SetItem.range a b).Good m)
    (hz : ∀ e, (a - m) / 16 ≤ e / 16 → e / 16 ≤ (b - m) / 16 → ¬ Bit4 s.set e) :
    ∃ t, addBits (BitVec.ofNat 16 a) (BitVec.ofNat 16 b) (BitVec.ofNat 16 m) s =
        { s with set := t } ∧ t.length = 4 ∧
      ∀ e, Bit4 t e ↔ Bit4 s.set e ∨ (a - m ≤ e ∧ e ≤ b - m) := by
  obtain ⟨g1, g2, g3, g4, g5⟩ := hg
  simp only [SetItem.first, SetItem.last] at g1 g2 g3 g4 g5
  have e1 : (BitVec.ofNat 16 a - BitVec.ofNat 16 m).toNat = a - m := by
    rw [BitVec.toNat_sub, BitVec.toNat_ofNat, BitVec.toNat_ofNat]; omega
  have e2 : (BitVec.ofNat 16 b - BitVec.ofNat 16 m).toNat = b - m := by
    rw [BitVec.toNat_sub, BitVec.toNat_ofNat, BitVec.toNat_ofNat]; omega
  have e3 : (BitVec.ofNat 16 a).toNat = a := by rw [BitVec.toNat_ofNat]; omega
  have e4 : (BitVec.ofNat 16 b).toNat = b := by rw [BitVec.toNat_ofNat]; omega
  have e5 : ((b : Int) - a + 1) = ((b - m : Nat) : Int) - ((a - m : Nat) : Int) + 1 := by omega
  unfold addBits
  simp only [e1, e2, e3, e4, e5]
  have hf2 : (a - m) ≤ (b - m) := by omega
  have hl : b - m < 64 := by omega
  generalize a - m = f at *
  generalize b - m = l at *
  clear e1 e2 e3 e4 e5
  have hlead := lead_bit (f % 16) (by omega)
  have htail := tail_bit (l % 16) (by omega)
  generalize hL : (0xffff#16 <<< (f % 16) : Word) = lead at *
  generalize hT : (0xffff#16 >>> (15 - l % 16) : Word) = tail at *
  by_cases hw : f / 16 = l / 16
  · rw [if_pos hw]
    obtain ⟨w, hw1, hw2⟩ := putWord_ok (s := s) (i := f / 16) (by omega) hs (fun _ => lead &&& tail)
    refine ⟨_, hw2, by simp [hs], fun e => ?_⟩
    rw [bit4_set (by omega)]
    split
    · rename_i he
      have := hz e (by omega) (by omega)
      rw [BitVec.getLsbD_and, Bool.and_eq_true, hlead _ (by omega), htail _ (by omega)]
      constructor
      · intro h; right; omega
      · rintro (h | h)
        · exact absurd h this
        · omega
    · rename_i he
      constructor
      · exact .inl
      · rintro (h | h)
        · exact h
        · omega
  · rw [if_neg hw]
    obtain ⟨hf, hcond⟩ := g5.resolve_left hw
    have hfw : f / 16 = 0 := by omega
    -- the words of the set
    obtain ⟨w0, w1, w2, w3, hset⟩ : ∃ w0 w1 w2 w3, s.set = [w0, w1, w2, w3] := by
      match h : s.set, hs with
      | [w0, w1, w2, w3], _ => exact ⟨w0, w1, w2, w3, rfl⟩
    have key : ∃ t, bitLoop tail ((l % 16 + 1 : Nat) : Int) 5 lead (16 - (f : Int))
          ((l : Int) - f + 1) (f / 16) s = { s with set := t } ∧ t.length = 4 ∧
        ∀ i, t[i]? = if i = 0 then some lead else if i < l / 16 then some 0xffff#16
          else if i = l / 16 then some tail else s.set[i]? := by
      rw [hfw]
      have hput : ∀ (s : KS) (i : Nat) (w : Word), i < s.set.length →
          putWord s i (fun _ => w) = { s with set := s.set.set i w } := by
        intro s i w h
        unfold putWord
        rw [List.getElem?_eq_getElem h]
      have hlw : l / 16 = 1 ∨ l / 16 = 2 ∨ l / 16 = 3 := by omega
      have htail_full : l % 16 = 15 → tail = 0xffff#16 := by
        intro h; rw [← hT, h]; rfl
      rw [bitLoop, if_pos (by omega), hput s 0 lead (by omega)]
      rcases hlw with hlw | hlw | hlw
      · -- two words
        refine ⟨[lead, tail, w2, w3], ?_, rfl, ?_⟩
        · by_cases h31 : l = 31
          · simp only
            rw [if_pos (by omega), bitLoop, if_pos (by omega), hput _ 1 _ (by simp [hset])]
            simp only
            rw [if_neg (by omega), if_neg (by omega), htail_full (by omega)]
            simp [hset]
          · simp only
            rw [if_neg (by omega), if_pos (by omega), bitLoop, if_pos (by omega),
              hput _ 1 _ (by simp [hset])]
            simp only
            rw [if_neg (by omega), if_neg (by omega)]
            simp [hset]
        · intro i
          rcases i with _ | _ | _ | _ | i <;> simp [hlw, hset]
      · refine ⟨[lead, 0xffff#16, tail, w3], ?_, rfl, ?_⟩
        · simp only
          rw [if_pos (by omega), bitLoop, if_pos (by omega), hput _ 1 _ (by simp [hset])]
          simp only
          by_cases h31 : l = 47
          · rw [if_pos (by omega), bitLoop, if_pos (by omega), hput _ 2 _ (by simp [hset])]
            simp only
            rw [if_neg (by omega), if_neg (by omega), htail_full (by omega)]
            simp [hset]
          · rw [if_neg (by omega), if_pos (by omega), bitLoop, if_pos (by omega),
              hput _ 2 _ (by simp [hset])]
            simp only
            rw [if_neg (by omega), if_neg (by omega)]
            simp [hset]
        · intro i
          rcases i with _ | _ | _ | _ | i <;> simp [hlw, hset]
      · refine ⟨[lead, 0xffff#16, 0xffff#16, tail], ?_, rfl, ?_⟩
        · simp only
          rw [if_pos (by omega), bitLoop, if_pos (by omega), hput _ 1 _ (by simp [hset])]
          simp only
          rw [if_pos (by omega), bitLoop, if_pos (by omega), hput _ 2 _ (by simp [hset])]
          simp only
          by_cases h31 : l = 63
          · rw [if_pos (by omega), bitLoop, if_pos (by omega), hput _ 3 _ (by simp [hset])]
            simp only
            rw [if_neg (by omega), if_neg (by omega), htail_full (by omega)]
            simp [hset]
          · rw [if_neg (by omega), if_pos (by omega), bitLoop, if_pos (by omega),
              hput _ 3 _ (by simp [hset])]
            simp only
            rw [if_neg (by omega), if_neg (by omega)]
            simp [hset]
        · intro i
          rcases i with _ | _ | _ | _ | i <;> simp [hlw, hset]
    obtain ⟨t, h1, h2, h3⟩ := key
    refine ⟨t, h1, h2, fun e => ?_⟩
    unfold Bit4
    rw [h3]
    by_cases c0 : e / 16 = 0
    · rw [if_pos c0]
      have := hz e (by omega) (by omega)
      constructor
      · rintro ⟨w, hw, hb⟩
        cases hw
        rw [hlead _ (by omega)] at hb
        right; omega
      · rintro (h | h)
        · exact absurd h this
        · exact ⟨_, rfl, (hlead _ (by omega)).2 (by omega)⟩
    · rw [if_neg c0]
      by_cases c1 : e / 16 < l / 16
      · rw [if_pos c1]
        constructor
        · rintro _
          right; omega
        · rintro _
          exact ⟨_, rfl, ones_bit _ (by omega)⟩
      · rw [if_neg c1]
        by_cases c2 : e / 16 = l / 16
        · rw [if_pos c2]
          have := hz e (by omega) (by omega)
          constructor
          · rintro ⟨w, hw, hb⟩
            cases hw
            rw [htail _ (by omega)] at hb
            right; omega
          · rintro (h | h)
            · exact absurd h this
            · exact ⟨_, rfl, (htail _ (by omega)).2 (by omega)⟩
        · rw [if_neg c2]
          constructor
          · exact .inl
          · rintro (h | h)
            · exact h
            · omega

/-- One item is read. -/
theorem subSet_ok {s : KS} {i : SetItem} {m : Nat} {rest : List Tk} (ht : s.toks = i.toks ++ rest)
    (hr : rest.head? ≠ some (.other 0x0b)) (hs : s.set.length = 4) (hg : i.Good m)
    (hz : i.isRange → ∀ e, (i.first - m) / 16 ≤ e / 16 → e / 16 ≤ (i.last - m) / 16 →
      ¬ Bit4 s.set e) :
    ∃ t, subSet (BitVec.ofNat 16 m) s = { s with toks := rest, set := t } ∧ t.length = 4 ∧
      ∀ e, Bit4 t e ↔ Bit4 s.set e ∨ (m + e ≤ 65535 ∧ i.Has (m + e)) := by
  cases i with
  | one x =>
    obtain ⟨g1, -, g3, g4, g5⟩ := hg
    simp only [SetItem.first, SetItem.last] at g1 g3 g4 g5
    have h1 : s.tok = .int (BitVec.ofNat 32 x) := by simp [KS.tok, ht, SetItem.toks]
    have h2 : s.next.toks = rest := by simp [KS.next, ht, SetItem.toks]
    have h3 : ¬ s.next.tok = .other 0x0b := by
      intro h
      apply hr
      unfold KS.tok at h
      rw [h2] at h
      cases rest with
      | nil => cases h
      | cons t r => simpa using h
    have e0 : BitVec.setWidth 16 (BitVec.ofNat 32 x) = BitVec.ofNat 16 x := by
      apply BitVec.eq_of_toNat_eq; simp
    have e1 : (BitVec.ofNat 16 x - BitVec.ofNat 16 m).toNat = x - m := by
      rw [BitVec.toNat_sub, BitVec.toNat_ofNat, BitVec.toNat_ofNat]; omega
    obtain ⟨w, hw1, hw2⟩ := putWord_ok (s := s.next) (i := (x - m) / 16) (by omega) hs
      (fun w => w ||| 1#16 <<< ((x - m) % 16))
    refine ⟨s.set.set ((x - m) / 16) (w ||| 1#16 <<< ((x - m) % 16)), ?_, by simp [hs], fun e => ?_⟩
    · unfold subSet
      rw [h1]
      simp only [literal]
      rw [if_neg h3, e0, e1, hw2]
      simp [KS.next, ht, SetItem.toks]
    · rw [bit4_set (by omega)]
      split
      · rename_i he
        rw [BitVec.getLsbD_or, Bool.or_eq_true, one_bit _ (by omega) _ (by omega)]
        have : Bit4 s.set e ↔ w.getLsbD (e % 16) = true := by
          unfold Bit4
          rw [he, show s.set = s.next.set from rfl, hw1]
          simp
        rw [this]
        constructor
        · rintro (h | h)
          · exact .inl h
          · right
            exact ⟨by omega, show m + e = x by omega⟩
        · rintro (h | ⟨_, h⟩)
          · exact .inl h
          · right
            have h : m + e = x := h
            omega
      · rename_i he
        constructor
        · exact .inl
        · rintro (h | ⟨_, h⟩)
          · exact h
          · exfalso
            have h : m + e = x := h
            exact he (by omega)
  | range a b =>
    obtain ⟨t, h1, h2, h3⟩ := addBits_ok (s := s.next.next) (a := a) (b := b) (m := m) hs hg
      (hz trivial)
    obtain ⟨g1, g2, g3, g4, g5⟩ := hg
    simp only [SetItem.first, SetItem.last] at g1 g2 g3 g4 g5
    refine ⟨t, ?_, h2, fun e => ?_⟩
    · have t1 : s.tok = .int (BitVec.ofNat 32 a) := by simp [KS.tok, ht, SetItem.toks]
      have t2 : s.next.tok = .other 0x0b := by simp [KS.tok, KS.next, ht, SetItem.toks]
      have t3 : s.next.next.tok = .int (BitVec.ofNat 32 b) := by
        simp [KS.tok, KS.next, ht, SetItem.toks]
      have e0 : BitVec.setWidth 16 (BitVec.ofNat 32 a) = BitVec.ofNat 16 a := by
        apply BitVec.eq_of_toNat_eq; simp
      have e1 : BitVec.setWidth 16 (BitVec.ofNat 32 b) = BitVec.ofNat 16 b := by
        apply BitVec.eq_of_toNat_eq; simp
      unfold subSet
      rw [t1]
      simp only [literal]
      rw [if_pos t2, t3]
      simp only [if_true]
      rw [e0, e1, h1]
      simp [KS.next, ht, SetItem.toks]
    · rw [h3]
      show Bit4 s.set e ∨ _ ↔ _
      simp only [SetItem.Has]
      constructor
      · rintro (h | h)
        · exact .inl h
        · right; omega
      · rintro (h | h)
        · exact .inl h
        · right; omega

theorem more_head (is : List SetItem) (rest : List Tk) :
    (moreItems is ++ .other 0x5d :: rest).head? ≠ some (.other 0x0b) := by
  cases is <;> simp [moreItems]

/-- The further items are read. -/
theorem subSets_ok {m : Nat} {rest : List Tk} : ∀ (is : List SetItem) (s : KS),
    s.toks = moreItems is ++ .other 0x5d :: rest → s.set.length = 4 → (∀ i ∈ is, i.Good m) →
    is.Pairwise (fun i j => j.isRange → i.Apart m j) →
    (∀ i ∈ is, i.isRange → ∀ e, (i.first - m) / 16 ≤ e / 16 → e / 16 ≤ (i.last - m) / 16 →
      ¬ Bit4 s.set e) →
    ∃ t, (∀ n, is.length < n → subSets (BitVec.ofNat 16 m) n s =
        some { s with toks := .other 0x5d :: rest, set := t }) ∧ t.length = 4 ∧
      ∀ e, Bit4 t e ↔ Bit4 s.set e ∨ ∃ i ∈ is, m + e ≤ 65535 ∧ i.Has (m + e)
  | [], s, ht, hs, _, _, _ => by
    refine ⟨s.set, fun n hn => ?_, hs, by simp⟩
    obtain ⟨k, rfl⟩ : ∃ k, n = k + 1 := ⟨n - 1, by simp at hn; omega⟩
    have h1 : ¬ s.tok = .comma := by simp [KS.tok, ht, moreItems]
    rw [subSets, if_neg h1]
    have : s.toks = .other 0x5d :: rest := ht
    rw [← this]
  | i :: is, s, ht, hs, hg, hp, hz => by
    obtain ⟨t, h1, h2, h3⟩ := subSet_ok (s := s.next) (i := i) (m := m)
      (rest := moreItems is ++ .other 0x5d :: rest)
      (by simp [KS.next, ht, moreItems]) (more_head is rest) hs
      (hg i (by simp)) (hz i (by simp))
    have hp' := List.pairwise_cons.1 hp
    obtain ⟨u, g1, g2, g3⟩ := subSets_ok (m := m) (rest := rest) is
      { s.next with toks := moreItems is ++ .other 0x5d :: rest, set := t } rfl h2
      (fun j hj => hg j (by simp [hj])) hp'.2 (by
        intro j hj hr e he1 he2 hb
        rcases (h3 e).1 hb with hb | ⟨hb1, hb2⟩
        · exact hz j (by simp [hj]) hr e he1 he2 hb
        · have ha := hp'.1 j hj hr
          have hgi := hg i (by simp)
          obtain ⟨k1, k2, k3, _⟩ := hgi
          have hin : i.first ≤ m + e ∧ m + e ≤ i.last := by
            cases i with
            | one x =>
              have : m + e = x := hb2
              simp only [SetItem.first, SetItem.last]; omega
            | range a b => exact hb2
          unfold SetItem.Apart at ha
          omega)
    refine ⟨u, fun n hn => ?_, g2, fun e => ?_⟩
    · obtain ⟨k, rfl⟩ : ∃ k, n = k + 1 := ⟨n - 1, by omega⟩
      have t1 : s.tok = .comma := by simp [KS.tok, ht, moreItems]
      rw [subSets, if_pos t1, h1, g1 k (by simp at hn; omega)]
      rfl
    · rw [g3]
      show Bit4 t e ∨ _ ↔ _
      rw [h3]
      simp only [List.mem_cons, exists_eq_or_imp]
      exact or_assoc

theorem bit4_zero (e : Nat) : ¬ Bit4 [0#16, 0#16, 0#16, 0#16] e := by
  rintro ⟨w, h1, h2⟩
  have : w ∈ [0#16, 0#16, 0#16, 0#16] := List.mem_of_getElem? h1
  simp at this
  rw [this] at h2
  simp at h2

/-- A set constant is read. -/
theorem set_ok {m : Nat} {rest : List Tk} (is : List SetItem) (s : KS)
    (ht : s.toks = setToks is ++ rest) (hg : ∀ i ∈ is, i.Good m)
    (hp : is.Pairwise (fun i j => j.isRange → i.Apart m j)) :
    ∃ t, (∀ n, is.length + 1 < n → constFactor n (BitVec.ofNat 16 m) s =
        some { s with toks := rest, kind := .set, set := t }) ∧ t.length = 4 ∧
      ∀ e, Bit4 t e ↔ ∃ i ∈ is, m + e ≤ 65535 ∧ i.Has (m + e) := by
  have hfac : ∀ k, constFactor (k + 1) (BitVec.ofNat 16 m) s = setFactor (BitVec.ofNat 16 m) k s := by
    intro k
    have t1 : s.tok = .other 0x5b := by cases is <;> simp [KS.tok, ht, setToks]
    rw [constFactor, t1]
    rfl
  cases is with
  | nil =>
    refine ⟨[0#16, 0#16, 0#16, 0#16], fun n hn => ?_, rfl, fun e => ?_⟩
    · obtain ⟨k, rfl⟩ : ∃ k, n = k + 1 := ⟨n - 1, by simp at hn; omega⟩
      rw [hfac, setFactor]
      simp only [KS.next, KS.tok, ht, setToks, List.cons_append, List.nil_append, List.tail_cons,
        List.headD_cons, if_true]
      rfl
    · simp [bit4_zero]
  | cons i is =>
    have hp' := List.pairwise_cons.1 hp
    let s0 : KS := { s with
      toks := i.toks ++ (moreItems is ++ .other 0x5d :: rest)
      set := [0#16, 0#16, 0#16, 0#16] }
    obtain ⟨t, h1, h2, h3⟩ := subSet_ok (s := s0) (i := i) (m := m)
      (rest := moreItems is ++ .other 0x5d :: rest) rfl (more_head is rest) rfl
      (hg i (by simp)) (fun _ e _ _ => bit4_zero e)
    obtain ⟨u, g1, g2, g3⟩ := subSets_ok (m := m) (rest := rest) is
      { s0 with toks := moreItems is ++ .other 0x5d :: rest, set := t } rfl h2
      (fun j hj => hg j (by simp [hj])) hp'.2 (by
        intro j hj hr e he1 he2 hb
        rcases (h3 e).1 hb with hb | ⟨hb1, hb2⟩
        · exact bit4_zero e hb
        · have ha := hp'.1 j hj hr
          have hgi := hg i (by simp)
          obtain ⟨k1, k2, k3, _⟩ := hgi
          have hin : i.first ≤ m + e ∧ m + e ≤ i.last := by
            cases i with
            | one x =>
              have : m + e = x := hb2
              simp only [SetItem.first, SetItem.last]; omega
            | range a b => exact hb2
          unfold SetItem.Apart at ha
          omega)
    refine ⟨u, fun n hn => ?_, g2, fun e => ?_⟩
    · obtain ⟨k, rfl⟩ : ∃ k, n = k + 1 := ⟨n - 1, by omega⟩
      rw [hfac, setFactor]
      have e1 : ({ s with set := [0#16, 0#16, 0#16, 0#16] } : KS).next = s0 := by
        simp [KS.next, ht, setToks, s0]
      simp only [e1]
      have t1 : ¬ s0.tok = .other 0x5d := by cases i <;> simp [KS.tok, s0, SetItem.toks]
      rw [if_neg t1, h1, g1 k (by simp at hn; omega)]
      simp [KS.expect, KS.tok, KS.next, s0]
    · rw [g3]
      show Bit4 t e ∨ _ ↔ _
      rw [h3]
      show (Bit4 [0#16, 0#16, 0#16, 0#16] e ∨ _) ∨ _ ↔ _
      simp only [bit4_zero, false_or, List.mem_cons, exists_eq_or_imp]

end Pas.KL
