import Verif.Lemmas.Ok
import Verif.Spec.Heap

/-! The heap under stack-like use: one row of chunks in use followed by at most one free chunk. -/
namespace Pas.Heap
open Spec

theorem rdF_ok {s : VM} {p k : Nat} (hp : p % 2 = 0) (hw : p / 2 + k < s.words) :
    rdF s p k = .ok (s.mem (p / 2 + k)).toNat := by
  rw [rdF, if_pos hp, VM.rd_eq _ hw]; rfl

theorem wrF_ok {s : VM} {p k : Nat} (v : Nat) (hp : p % 2 = 0) (hw : p / 2 + k < s.words) :
    wrF s p k v = .ok { s with mem := updW s.mem (p / 2 + k) (BitVec.ofNat 16 v) } := by
  rw [wrF, if_pos hp, VM.wr_eq _ _ hw]

theorem getFwd_ok {s : VM} {p : Nat} (hp : p % 2 = 0) (hw : p / 2 < s.words) :
    getFwd s p = .ok ((s.mem (p / 2)).toNat % 32768) := by
  rw [getFwd, rdF_ok hp hw]; rfl

theorem getUse_ok {s : VM} {p : Nat} (hp : p % 2 = 0) (hw : p / 2 < s.words) :
    getUse s p = .ok (decide ((s.mem (p / 2)).toNat / 32768 = 1)) := by
  rw [getUse, rdF_ok hp hw]; rfl

theorem getBack_ok {s : VM} {p : Nat} (hp : p % 2 = 0) (hw : p / 2 + 1 < s.words) :
    getBack s p = .ok ((s.mem (p / 2 + 1)).toNat % 32768) := by
  rw [getBack, rdF_ok hp hw]; rfl

theorem setFwd_ok {s : VM} {p : Nat} (v : Nat) (hp : p % 2 = 0) (hw : p / 2 < s.words) :
    setFwd s p v = .ok { s with
      mem := updW s.mem (p / 2)
        (BitVec.ofNat 16 ((s.mem (p / 2)).toNat / 32768 * 32768 + v % 32768)) } := by
  rw [setFwd, rdF_ok hp hw, Res.ok_bind, wrF_ok _ hp hw]; rfl

theorem setUse_ok {s : VM} {p : Nat} (b : Bool) (hp : p % 2 = 0) (hw : p / 2 < s.words) :
    setUse s p b = .ok { s with
      mem := updW s.mem (p / 2)
        (BitVec.ofNat 16 ((s.mem (p / 2)).toNat % 32768 + if b then 32768 else 0)) } := by
  rw [setUse, rdF_ok hp hw, Res.ok_bind, wrF_ok _ hp hw]; rfl

theorem setBack_ok {s : VM} {p : Nat} (v : Nat) (hp : p % 2 = 0) (hw : p / 2 + 1 < s.words) :
    setBack s p v = .ok { s with
      mem := updW s.mem (p / 2 + 1)
        (BitVec.ofNat 16 ((s.mem (p / 2 + 1)).toNat / 32768 * 32768 + v % 32768)) } := by
  rw [setBack, rdF_ok hp hw, Res.ok_bind, wrF_ok _ hp hw]

/-- Insertion into the empty free list. -/
theorem addChunk_empty {s : VM} {p : Nat} (hf : s.freeChunks = none) (hp : p % 2 = 0)
    (hw : p / 2 + 5 < s.words) :
    addChunk s p = .ok { s with
      mem := updW (updW s.mem (p / 2 + 4) 0) (p / 2 + 5) 0
      freeChunks := some p } := by
  rw [addChunk, getFwd_ok hp (by omega), Res.ok_bind, hf]
  show (do
    let s ← setPrev s p 0
    let s ← setNext s p 0
    pure { s with freeChunks := some p }) = _
  rw [setPrev, wrF_ok _ hp (by omega), Res.ok_bind, setNext, wrF_ok _ hp (by exact hw), Res.ok_bind]
  rfl

/-- Removal of the only free chunk. -/
theorem removeChunk_only {s : VM} {p : Nat} (hp : p % 2 = 0) (hw : p / 2 + 5 < s.words)
    (h4 : s.mem (p / 2 + 4) = 0) (h5 : s.mem (p / 2 + 5) = 0) :
    removeChunk s p = .ok { s with freeChunks := none } := by
  rw [removeChunk, getPrev, rdF_ok hp (by omega), Res.ok_bind, getNext, rdF_ok hp hw, Res.ok_bind,
    h4, h5]
  rfl

/-- The row of chunks in use: `Used m h e last live` says the row starts at `h`, ends at `e`,
and the last chunk has size `last` (0 if there is none). -/
inductive Used (m : Nat → Word) (h : Nat) : Nat → Nat → List Block → Prop
  | nil : Used m h h 0 []
  | cons {a bk z : Nat} {b : Block} {live : List Block} (below : Used m h a bk live)
      (addr : b.addr = a + 8) (big : 24 ≤ z) (al : z % 8 = 0) (size : b.size + 8 ≤ z)
      (small : z < 32768) (w0 : (m (a / 2)).toNat = z + 32768)
      (w1 : (m (a / 2 + 1)).toNat % 32768 = bk) (w2 : (m (a / 2 + 2)).toNat = a - h) :
      Used m h (a + z) z (b :: live)

theorem Used.le0 {m : Nat → Word} {h e l : Nat} {live : List Block} (u : Used m h e l live) :
    h ≤ e := by
  induction u with
  | nil => omega
  | cons => omega

theorem Used.le {m : Nat → Word} {h e l : Nat} {live : List Block} (u : Used m h e l live) :
    h + l ≤ e := by
  cases u with
  | nil => omega
  | cons below _ _ _ _ _ _ _ _ =>
    have := below.le0
    omega

theorem Used.al {m : Nat → Word} {h e l : Nat} {live : List Block} (u : Used m h e l live)
    (hh : h % 16 = 0) : e % 8 = 0 := by
  induction u with
  | nil => omega
  | cons => omega

theorem Used.lastAl {m : Nat → Word} {h e l : Nat} {live : List Block} (u : Used m h e l live) :
    l % 8 = 0 := by
  cases u with
  | nil => rfl
  | cons _ _ _ al => exact al

theorem Used.mem {m : Nat → Word} {h e l : Nat} {live : List Block} (u : Used m h e l live) :
    ∀ b ∈ live, h + 8 ≤ b.addr ∧ b.addr + b.size ≤ e := by
  induction u with
  | nil => simp
  | cons below addr big al size small _ _ _ ih =>
    intro c hc
    have := below.le
    rcases List.mem_cons.1 hc with rfl | hc
    · omega
    · have := ih c hc; omega

theorem Used.disjoint {m : Nat → Word} {h e l : Nat} {live : List Block}
    (u : Used m h e l live) : live.Pairwise Block.Disjoint := by
  induction u with
  | nil => exact .nil
  | cons below addr big al size small _ _ _ ih =>
    refine .cons (fun c hc => ?_) ih
    have := below.mem c hc
    right; omega

theorem Used.congr {m m' : Nat → Word} {h e l : Nat} {live : List Block}
    (u : Used m h e l live) (hh : h % 16 = 0)
    (hm : ∀ i, h ≤ 2 * i → 2 * i < e → (∀ b ∈ live, ¬b.Owns i) → m' i = m i) :
    Used m' h e l live := by
  induction u with
  | nil => exact .nil
  | cons below addr big al size small w0 w1 w2 ih =>
    rename_i a bk z b live
    have hle := below.le
    have hal := below.al hh
    have own : ∀ k, k ≤ 2 → ∀ c ∈ b :: live, ¬c.Owns (a / 2 + k) := by
      intro k hk c hc
      unfold Block.Owns
      rcases List.mem_cons.1 hc with rfl | hc
      · omega
      · have := below.mem c hc; omega
    refine .cons (ih fun i h1 h2 h3 => ?_) addr big al size small ?_ ?_ ?_
    · refine hm i h1 (by omega) fun c hc => ?_
      rcases List.mem_cons.1 hc with rfl | hc
      · unfold Block.Owns; omega
      · exact h3 c hc
    · rw [hm (a / 2) (by omega) (by omega) (own 0 (by omega))]; exact w0
    · rw [hm _ (by omega) (by omega) (own 1 (by omega))]; exact w1
    · rw [hm _ (by omega) (by omega) (own 2 (by omega))]; exact w2

/-- The invariant: heap `[h, t)` followed by an end marker at `t`. -/
structure Inv (s : VM) (h t e last : Nat) (live : List Block) : Prop where
  hs : h = (s.hpb.toNat + 15) / 16 * 16
  ts : t = (h + s.hpSize.toNat) / 16 * 16 - 16
  big : h + 32 ≤ h + s.hpSize.toNat
  small : t - h < 32768
  fits : h + s.hpSize.toNat < 65536
  words : h + s.hpSize.toNat ≤ 2 * s.words
  used : Used s.mem h e last live
  le : e ≤ t
  mark : 32768 ≤ (s.mem (t / 2)).toNat
  tail : e = t ∧ s.freeChunks = none ∨
    e + 16 ≤ t ∧ s.freeChunks = some e ∧ (s.mem (e / 2)).toNat = t - e ∧
      (s.mem (e / 2 + 1)).toNat % 32768 = last ∧ (s.mem (e / 2 + 2)).toNat = e - h ∧
      s.mem (e / 2 + 4) = 0 ∧ s.mem (e / 2 + 5) = 0

theorem Inv.start {s : VM} {h t e last : Nat} {live : List Block} (i : Inv s h t e last live) :
    heapStart s = h := by
  have := i.hs; have := i.fits
  unfold heapStart alignUp
  omega

theorem ofNat16 {n : Nat} (h : n < 65536) : (BitVec.ofNat 16 n).toNat = n := by
  rw [BitVec.toNat_ofNat]; omega

theorem Inv.client {s s' : VM} {h t e last : Nat} {live : List Block}
    (i : Inv s h t e last live) (r : Respects live s s') : Inv s' h t e last live := by
  obtain ⟨r1, r2, r3, r4, r5⟩ := r
  have hs := i.hs
  have ts := i.ts
  have := i.big
  have al := i.used.al (by omega)
  have hle := i.used.le
  have le := i.le
  have own : ∀ j, e ≤ 2 * j → s'.mem j = s.mem j := fun j hj => r5 j (by omega) fun b hb => by
    have := i.used.mem b hb
    unfold Block.Owns; omega
  refine ⟨by rw [r1]; exact hs, by rw [r2]; exact ts, by rw [r2]; exact i.big, i.small,
    by rw [r2]; exact i.fits, by rw [r2, r3]; exact i.words, ?_, i.le, ?_, ?_⟩
  · exact i.used.congr (by omega) fun j h1 h2 h3 => r5 j (by omega) h3
  · rw [own _ (by omega)]; exact i.mark
  · rw [r4, own _ (by omega), own _ (by omega), own _ (by omega), own _ (by omega),
      own _ (by omega)]
    exact i.tail

set_option maxHeartbeats 1000000 in
/-- Allocation, successful case. -/
theorem alloc_ok {s : VM} {h t e last size : Nat} {live : List Block}
    (i : Inv s h t e last live) (h0 : 0 < size) (h1 : size ≤ 0xfff0)
    (hfit : e + footprint size ≤ t) :
    ∃ m f e' z, alloc s size = .ok (e + 8, { s with mem := m, freeChunks := f }) ∧
      Inv { s with mem := m, freeChunks := f } h t e' z (⟨e + 8, size⟩ :: live) ∧
      ∀ j, 2 * j < e → m j = s.mem j := by
  have hst := i.start
  obtain ⟨hs, ts, big, small, fits, words, used, le, mark, tail⟩ := i
  have al := used.al (by omega)
  have hle := used.le
  unfold footprint at hfit
  rcases tail with ⟨rfl, _⟩ | ⟨te, tf, t0, t1, t2, t4, t5⟩
  · omega
  generalize hn : (size + 15) / 16 * 16 + 8 = n at *
  have hn2 : n % 8 = 0 := by omega
  rw [alloc, tf, show (alignUp size + 8) % 65536 = n by unfold alignUp; omega]
  rw [show searchFuel = searchFuel - 1 + 1 from rfl, allocLoop]
  rw [getFwd_ok (by omega) (by omega), Res.ok_bind, getNext, rdF_ok (by omega) (by omega),
    Res.ok_bind]
  rw [if_pos (by rw [t0]; omega), removeChunk_only (by omega) (by omega) t4 t5, Res.ok_bind,
    setUse_ok _ (by omega) (by show _ < s.words; omega), Res.ok_bind]
  simp only [t0, if_true]
  rw [show (t - e) % 32768 = t - e by omega]
  by_cases hsp : t - e > n + 16
  · rw [if_pos hsp, split, getAddr, rdF_ok (by omega) (by show _ < s.words; omega), Res.ok_bind]
    have e2 : ∀ w : Word, (updW s.mem (e / 2) w (e / 2 + 2)).toNat = e - h := fun w => by
      rw [updW_other _ _ (by omega)]; exact t2
    simp only [e2]
    have hst2 : ∀ (m : Nat → Word) f, heapStart { s with mem := m, freeChunks := f } = h :=
      fun _ _ => hst
    simp only [hst2]
    rw [show h + (e - h) + n = e + n by omega]
    rw [getFwd_ok (by omega) (by show _ < s.words; omega), Res.ok_bind]
    simp only [updW_same]
    rw [setFwd_ok _ (by omega) (by show _ < s.words; omega), Res.ok_bind,
      setUse_ok _ (by omega) (by show _ < s.words; omega), Res.ok_bind,
      setBack_ok _ (by omega) (by show _ < s.words; omega), Res.ok_bind,
      rdF_ok (by omega) (by show _ < s.words; omega), Res.ok_bind,
      wrF_ok _ (by omega) (by show _ < s.words; omega), Res.ok_bind,
      getAddr, rdF_ok (by omega) (by show _ < s.words; omega), Res.ok_bind,
      setAddr, wrF_ok _ (by omega) (by show _ < s.words; omega), Res.ok_bind,
      wrF_ok _ (by omega) (by show _ < s.words; omega), Res.ok_bind,
      setFwd_ok _ (by omega) (by show _ < s.words; omega), Res.ok_bind]
    simp only
    generalize hm : updW _ (e / 2) (BitVec.ofNat 16 (_ + n % 32768)) = m
    have m0 : (m (e / 2)).toNat = n + 32768 := by
      rw [← hm, updW_same, updW_other _ _ (by omega), updW_other _ _ (by omega),
        updW_other _ _ (by omega), updW_other _ _ (by omega), updW_other _ _ (by omega),
        updW_other _ _ (by omega), updW_same, ofNat16 (by omega), ofNat16 (by omega)]
      omega
    have s0 : (m ((e + n) / 2)).toNat = t - (e + n) := by
      rw [← hm, updW_other _ _ (by omega), updW_other _ _ (by omega), updW_other _ _ (by omega),
        updW_other _ _ (by omega), updW_other _ _ (by omega), updW_same, updW_same]
      simp only [BitVec.toNat_ofNat]
      simp
      omega
    have s1 : (m ((e + n) / 2 + 1)).toNat = n := by
      rw [← hm, updW_other _ _ (by omega), updW_other _ _ (by omega), updW_other _ _ (by omega),
        updW_same, updW_same]
      simp only [BitVec.toNat_ofNat]
      omega
    have s2 : (m ((e + n) / 2 + 2)).toNat = e + n - h := by
      rw [← hm, updW_other _ _ (by omega), updW_other _ _ (by omega), updW_same,
        updW_other _ _ (by omega), updW_other _ _ (by omega), updW_other _ _ (by omega),
        updW_other _ _ (by omega), updW_other _ _ (by omega), t2, ofNat16 (by omega)]
      omega
    have so : ∀ j, j ≠ e / 2 → j ≠ (e + n) / 2 → j ≠ (e + n) / 2 + 1 → j ≠ (e + n) / 2 + 2 →
        j ≠ (e + n) / 2 + 3 → m j = s.mem j := by
      intro j a1 a2 a3 a4 a5
      rw [← hm, updW_other _ _ a1, updW_other _ _ a5, updW_other _ _ a4, updW_other _ _ a3,
        updW_other _ _ a3, updW_other _ _ a2, updW_other _ _ a2, updW_other _ _ a1]
    clear hm
    rw [disposeChunk, setUse_ok _ (by omega) (by show _ < s.words; omega), Res.ok_bind]
    have eid : updW m ((e + n) / 2) (BitVec.ofNat 16 ((m ((e + n) / 2)).toNat % 32768 +
        if false = true then 32768 else 0)) = m := by
      have : BitVec.ofNat 16 ((m ((e + n) / 2)).toNat % 32768 +
        if false = true then 32768 else 0) = m ((e + n) / 2) := by
        apply BitVec.eq_of_toNat_eq
        rw [s0, BitVec.toNat_ofNat]
        simp
        omega
      rw [this, updW_id]
    simp only [eid]
    rw [getFwd_ok (by omega) (by show _ < s.words; omega), Res.ok_bind, s0,
      if_pos (by omega), getAddr, rdF_ok (by omega) (by show _ < s.words; omega), Res.ok_bind]
    simp only [s2, hst2, Res.pure_eq, Res.ok_bind]
    rw [show (h + (e + n - h) + (t - (e + n)) % 32768) % 65536 = t by omega]
    rw [mergePrev, getBack_ok (by omega) (by show _ < s.words; omega), Res.ok_bind, s1,
      if_neg (by omega), getAddr, rdF_ok (by omega) (by show _ < s.words; omega), Res.ok_bind]
    simp only [s2, hst2]
    have nlt : n % 32768 = n := by omega
    rw [nlt, show h + (e + n - h) + 65536 - n = e + 65536 by omega,
      show (e + 65536) % 65536 = e by omega,
      getUse_ok (by omega) (by show _ < s.words; omega), Res.ok_bind]
    rw [if_pos (by simp only [m0]; simp; omega)]
    simp only [Res.pure_eq, Res.ok_bind]
    rw [mergeNext]
    simp only
    rw [getUse_ok (by omega) (by show _ < s.words; omega), Res.ok_bind, if_pos (by
      show decide ((m (t / 2)).toNat / 32768 = 1) = true
      rw [so _ (by omega) (by omega) (by omega) (by omega) (by omega)]
      have := (s.mem (t / 2)).isLt
      simp; omega)]
    simp only [Bool.false_eq_true, if_false]
    rw [addChunk_empty rfl (by omega) (by show _ < s.words; omega), Res.ok_bind,
      getAddr, rdF_ok (by omega) (by show _ < s.words; omega), Res.ok_bind]
    simp only [hst2]
    rw [updW_other _ _ (by omega), updW_other _ _ (by omega),
      so _ (by omega) (by omega) (by omega) (by omega) (by omega), t2,
      show (h + (e - h) + 8) % 65536 = e + 8 by omega]
    refine ⟨_, _, e + n, n, rfl, ?_, ?_⟩
    · have below : ∀ j, 2 * j < e + n → j ≠ e / 2 →
          updW (updW m ((e + n) / 2 + 4) 0) ((e + n) / 2 + 5) 0 j = s.mem j := by
        intro j hj hne
        rw [updW_other _ _ (by omega), updW_other _ _ (by omega),
          so _ hne (by omega) (by omega) (by omega) (by omega)]
      refine ⟨hs, ts, big, small, fits, words, ?_, by omega, ?_, ?_⟩
      · refine Used.cons (used.congr (by omega) fun j a1 a2 _ => below j (by omega) (by omega)) rfl
          (by omega) hn2 (by show size + 8 ≤ n; omega) (by omega) ?_ ?_ ?_
        · show (updW (updW m _ _) _ _ _).toNat = _
          rw [updW_other _ _ (by omega), updW_other _ _ (by omega)]; exact m0
        · show (updW (updW m _ _) _ _ _).toNat % _ = _
          rw [below _ (by omega) (by omega)]; exact t1
        · show (updW (updW m _ _) _ _ _).toNat = _
          rw [below _ (by omega) (by omega)]; exact t2
      · show _ ≤ (updW (updW m _ _) _ _ _).toNat
        rw [updW_other _ _ (by omega), updW_other _ _ (by omega),
          so _ (by omega) (by omega) (by omega) (by omega) (by omega)]
        exact mark
      · right
        refine ⟨by omega, rfl, ?_, ?_, ?_, ?_, ?_⟩
        · show (updW (updW m _ _) _ _ _).toNat = _
          rw [updW_other _ _ (by omega), updW_other _ _ (by omega)]; exact s0
        · show (updW (updW m _ _) _ _ _).toNat % _ = _
          rw [updW_other _ _ (by omega), updW_other _ _ (by omega), s1]; omega
        · show (updW (updW m _ _) _ _ _).toNat = _
          rw [updW_other _ _ (by omega), updW_other _ _ (by omega)]; exact s2
        · show updW (updW m _ _) _ _ _ = _
          rw [updW_other _ _ (by omega), updW_same]
        · show updW (updW m _ _) _ _ _ = _
          rw [updW_same]
    · intro j hj
      rw [updW_other _ _ (by omega), updW_other _ _ (by omega),
          so _ (by omega) (by omega) (by omega) (by omega) (by omega)]
  · rw [if_neg hsp]
    simp only [Res.pure_eq, Res.ok_bind]
    rw [getAddr, rdF_ok (by omega) (by show _ < s.words; omega), Res.ok_bind]
    have e2 : ∀ w : Word, (updW s.mem (e / 2) w (e / 2 + 2)).toNat = e - h := fun w => by
      rw [updW_other _ _ (by omega)]; exact t2
    simp only [e2]
    have hst2 : ∀ (m : Nat → Word) f, heapStart { s with mem := m, freeChunks := f } = h :=
      fun _ _ => hst
    rw [hst2, show (h + (e - h) + 8) % 65536 = e + 8 by omega]
    refine ⟨_, _, t, t - e, rfl, ?_, ?_⟩
    · have hu : Used (updW s.mem (e / 2) (BitVec.ofNat 16 (t - e + 32768))) h (e + (t - e)) (t - e)
          (⟨e + 8, size⟩ :: live) := by
        refine Used.cons (used.congr (by omega) fun j a1 a2 _ => updW_other _ _ (by omega)) rfl
          (by omega) (by omega) (by show size + 8 ≤ t - e; omega) (by omega) ?_ ?_ ?_
        · rw [updW_same, ofNat16 (by omega)]
        · rw [updW_other _ _ (by omega)]; exact t1
        · rw [updW_other _ _ (by omega)]; exact t2
      rw [show e + (t - e) = t by omega] at hu
      refine ⟨hs, ts, big, small, fits, words, hu, by omega, ?_, Or.inl ⟨rfl, rfl⟩⟩
      show _ ≤ (updW s.mem _ _ _).toNat
      rw [updW_other _ _ (by omega)]; exact mark
    · intro j hj
      exact updW_other _ _ (by omega)

/-- Allocation, not enough room. -/
theorem alloc_fail {s : VM} {h t e last size : Nat} {live : List Block}
    (i : Inv s h t e last live) (h1 : size ≤ 0xfff0) (hfit : ¬e + footprint size ≤ t) :
    alloc s size = .ok (0, s) := by
  obtain ⟨hs, ts, big, small, fits, words, used, le, mark, tail⟩ := i
  have al := used.al (by omega)
  have hle := used.le
  unfold footprint at hfit
  have hn : (alignUp size + 8) % 65536 = (size + 15) / 16 * 16 + 8 := by unfold alignUp; omega
  rcases tail with ⟨rfl, tf⟩ | ⟨te, tf, t0, t1, t2, t4, t5⟩
  · rw [alloc, tf]; rfl
  · rw [alloc, tf, hn, show searchFuel = searchFuel - 2 + 1 + 1 from rfl, allocLoop]
    rw [getFwd_ok (by omega) (by omega), Res.ok_bind, getNext, rdF_ok (by omega) (by omega),
      Res.ok_bind, t5, if_neg (by rw [t0]; omega)]
    rfl

set_option maxHeartbeats 1000000 in
/-- Release of the last chunk. -/
theorem free_ok {s : VM} {h t e last : Nat} {b : Block} {live : List Block}
    (i : Inv s h t e last (b :: live)) :
    ∃ m f e' z, free s b.addr = .ok (eNOERROR, { s with mem := m, freeChunks := f }) ∧
      Inv { s with mem := m, freeChunks := f } h t e' z live ∧ b.addr = e' + 8 ∧
      ∀ j, 2 * j < e' → m j = s.mem j := by
  have hst := i.start
  obtain ⟨hs, ts, big, small, fits, words, used, le, mark, tail⟩ := i
  have al0 := used.al (by omega)
  have hle0 := used.le
  cases used with
  | cons below addr zbig zal zsize zsmall w0 w1 w2 =>
  rename_i a bk
  have hle := below.le
  have al := below.al (by omega)
  have lal := below.lastAl
  have hst2 : ∀ (m : Nat → Word) f, heapStart { s with mem := m, freeChunks := f } = h :=
    fun _ _ => hst
  rw [free, hst, if_neg (by omega), show b.addr - 8 = a by omega]
  simp only
  rw [getUse_ok (by omega) (by omega), Res.ok_bind, if_pos (by rw [w0]; simp; omega),
    setNext, wrF_ok _ (by omega) (by omega), Res.ok_bind,
    setPrev, wrF_ok _ (by omega) (by show _ < s.words; omega), Res.ok_bind]
  simp only
  rw [disposeChunk, setUse_ok _ (by omega) (by show _ < s.words; omega), Res.ok_bind]
  simp only
  generalize hm : updW _ (a / 2) (BitVec.ofNat 16 (_ % 32768 + _)) = m
  have m0 : (m (a / 2)).toNat = last := by
    rw [← hm, updW_same, updW_other _ _ (by omega), updW_other _ _ (by omega), w0,
      BitVec.toNat_ofNat]
    simp; omega
  have mo : ∀ j, j ≠ a / 2 → j ≠ a / 2 + 4 → j ≠ a / 2 + 5 → m j = s.mem j := by
    intro j a1 a2 a3
    rw [← hm, updW_other _ _ a1, updW_other _ _ a2, updW_other _ _ a3]
  clear hm
  have m1 : (m (a / 2 + 1)).toNat % 32768 = bk := by
    rw [mo _ (by omega) (by omega) (by omega)]; exact w1
  have m2 : (m (a / 2 + 2)).toNat = a - h := by
    rw [mo _ (by omega) (by omega) (by omega)]; exact w2
  have mE : ∀ j, a + last ≤ 2 * j → m j = s.mem j := fun j hj =>
    mo _ (by omega) (by omega) (by omega)
  have mP : ∀ (w : Word), (∃ z, w.toNat = z + 32768) → decide (w.toNat / 32768 = 1) = true := by
    intro w ⟨z, hz⟩
    have := w.isLt
    simp; omega
  rw [getFwd_ok (by omega) (by show _ < s.words; omega), Res.ok_bind, m0, if_pos (by omega),
    getAddr, rdF_ok (by omega) (by show _ < s.words; omega), Res.ok_bind]
  simp only [m2, hst2, Res.pure_eq, Res.ok_bind]
  rw [show (h + (a - h) + last % 32768) % 65536 = a + last by omega]
  have hmp : mergePrev { s with mem := m } a (some (a + last)) =
      .ok ({ s with mem := m }, a, false) := by
    rw [mergePrev, getBack_ok (by omega) (by show _ < s.words; omega), Res.ok_bind]
    simp only [m1]
    by_cases hb : bk = 0
    · rw [if_pos hb]; rfl
    · rw [if_neg hb, getAddr, rdF_ok (by omega) (by show _ < s.words; omega), Res.ok_bind]
      simp only [m2]
      rw [show heapStart { s with mem := m } = h from hst,
        show (h + (a - h) + 65536 - bk) % 65536 = a - bk by omega,
        getUse_ok (by omega) (by show _ < s.words; omega), Res.ok_bind]
      cases below with
      | nil => exact absurd rfl hb
      | cons below' addr' zbig' zal' zsize' zsmall' w0' w1' w2' =>
        rename_i a' bk' b' live'
        have := below'.le
        have := below'.al (by omega)
        rw [if_pos (by
          apply mP
          refine ⟨bk, ?_⟩
          show (m ((a' + bk - bk) / 2)).toNat = _
          rw [show a' + bk - bk = a' by omega, mo _ (by omega) (by omega) (by omega)]
          exact w0')]
        rfl
  rw [hmp, Res.ok_bind]
  simp only
  rw [mergeNext]
  simp only
  rcases tail with ⟨rfl, tf⟩ | ⟨te, tf, t0, t1, t2, t4, t5⟩
  · -- no free chunk: the end marker follows
    rw [getUse_ok (by omega) (by show _ < s.words; omega), Res.ok_bind, if_pos (by
      apply mP
      refine ⟨(s.mem ((a + last) / 2)).toNat - 32768, ?_⟩
      show (m _).toNat = _
      rw [mE _ (by omega)]; omega)]
    simp only [Bool.false_eq_true, if_false]
    rw [addChunk_empty (s := { s with mem := m }) tf (by omega) (by show _ < s.words; omega), Res.ok_bind]
    refine ⟨_, _, a, bk, rfl, ?_, addr, ?_⟩
    · have low : ∀ j, 2 * j < a →
          updW (updW m (a / 2 + 4) 0) (a / 2 + 5) 0 j = s.mem j := fun j hj => by
        rw [updW_other _ _ (by omega), updW_other _ _ (by omega),
          mo _ (by omega) (by omega) (by omega)]
      refine ⟨hs, ts, big, small, fits, words,
        below.congr (by omega) fun j _ h2 _ => low j h2, by omega, ?_, ?_⟩
      · show _ ≤ (updW (updW m _ _) _ _ _).toNat
        rw [updW_other _ _ (by omega), updW_other _ _ (by omega), mE _ (by omega)]
        exact mark
      · right
        refine ⟨by omega, rfl, ?_, ?_, ?_, ?_, ?_⟩
        · show (updW (updW m _ _) _ _ _).toNat = _
          rw [updW_other _ _ (by omega), updW_other _ _ (by omega), m0]; omega
        · show (updW (updW m _ _) _ _ _).toNat % _ = _
          rw [updW_other _ _ (by omega), updW_other _ _ (by omega)]; exact m1
        · show (updW (updW m _ _) _ _ _).toNat = _
          rw [updW_other _ _ (by omega), updW_other _ _ (by omega)]; exact m2
        · show updW (updW m _ _) _ _ _ = _
          rw [updW_other _ _ (by omega), updW_same]
        · show updW (updW m _ _) _ _ _ = _
          rw [updW_same]
    · intro j hj
      rw [updW_other _ _ (by omega), updW_other _ _ (by omega)]
      exact mo _ (by omega) (by omega) (by omega)
  · -- the free chunk follows and is absorbed
    rw [getUse_ok (by omega) (by show _ < s.words; omega), Res.ok_bind, if_neg (by
      show ¬decide ((m _).toNat / 32768 = 1) = true
      rw [mE _ (by omega), t0]; simp; omega)]
    rw [removeChunk_only (by omega) (by show _ < s.words; omega)
      (by show m _ = _; rw [mE _ (by omega)]; exact t4)
      (by show m _ = _; rw [mE _ (by omega)]; exact t5), Res.ok_bind]
    simp only [Bool.false_eq_true, if_false, Res.pure_eq, Res.ok_bind]
    rw [getFwd_ok (by omega) (by show _ < s.words; omega), Res.ok_bind,
      getFwd_ok (by omega) (by show _ < s.words; omega), Res.ok_bind]
    simp only [m0]
    rw [mE _ (by omega), t0, setFwd_ok _ (by omega) (by show _ < s.words; omega), Res.ok_bind]
    simp only [m0]
    generalize hm3 : updW m (a / 2) _ = m3
    have n0 : (m3 (a / 2)).toNat = t - a := by
      rw [← hm3, updW_same, BitVec.toNat_ofNat]; omega
    have no : ∀ j, j ≠ a / 2 → m3 j = m j := fun j hj => by rw [← hm3, updW_other _ _ hj]
    clear hm3
    rw [getFwd_ok (by omega) (by show _ < s.words; omega), Res.ok_bind]
    simp only
    rw [no _ (by omega), mE _ (by omega), t0, if_pos (by omega), getAddr,
      rdF_ok (by omega) (by show _ < s.words; omega), Res.ok_bind]
    simp only [hst2]
    rw [no _ (by omega), mE _ (by omega), t2,
      show (h + (a + last - h) + (t - (a + last)) % 32768) % 65536 = t by omega,
      getBack_ok (by omega) (by show _ < s.words; omega), Res.ok_bind,
      getBack_ok (by omega) (by show _ < s.words; omega), Res.ok_bind,
      setBack_ok _ (by omega) (by show _ < s.words; omega), Res.ok_bind]
    simp only
    generalize hm4 : updW m3 (t / 2 + 1) _ = m4
    have no4 : ∀ j, j ≠ t / 2 + 1 → m4 j = m3 j := fun j hj => by rw [← hm4, updW_other _ _ hj]
    clear hm4
    rw [addChunk_empty rfl (by omega) (by show _ < s.words; omega), Res.ok_bind]
    have lo : ∀ j, j ≠ t / 2 + 1 → j ≠ a / 2 → j ≠ a / 2 + 4 → j ≠ a / 2 + 5 →
        updW (updW m4 (a / 2 + 4) 0) (a / 2 + 5) 0 j = s.mem j := fun j a1 a2 a3 a4 => by
      rw [updW_other _ _ a4, updW_other _ _ a3, no4 _ a1, no _ a2, mo _ a2 a3 a4]
    refine ⟨_, _, a, bk, rfl, ?_, addr, ?_⟩
    · refine ⟨hs, ts, big, small, fits, words,
        below.congr (by omega) fun j _ h2 _ => lo j (by omega) (by omega) (by omega) (by omega),
        by omega, ?_, ?_⟩
      · show _ ≤ (updW (updW m4 _ _) _ _ _).toNat
        rw [lo _ (by omega) (by omega) (by omega) (by omega)]
        exact mark
      · right
        refine ⟨by omega, rfl, ?_, ?_, ?_, ?_, ?_⟩
        · show (updW (updW m4 _ _) _ _ _).toNat = _
          rw [updW_other _ _ (by omega), updW_other _ _ (by omega), no4 _ (by omega), n0]
        · show (updW (updW m4 _ _) _ _ _).toNat % _ = _
          rw [lo _ (by omega) (by omega) (by omega) (by omega)]; exact w1
        · show (updW (updW m4 _ _) _ _ _).toNat = _
          rw [lo _ (by omega) (by omega) (by omega) (by omega)]; exact w2
        · show updW (updW m4 _ _) _ _ _ = _
          rw [updW_other _ _ (by omega), updW_same]
        · show updW (updW m4 _ _) _ _ _ = _
          rw [updW_same]
    · intro j hj
      exact lo _ (by omega) (by omega) (by omega) (by omega)

theorem zero_eq (n : Nat) : ∀ {s : VM} {p : Nat}, p % 2 = 0 → p / 2 + n ≤ s.words →
    ∃ m, zero s p n = .ok { s with mem := m } ∧
      (∀ k < n, m (p / 2 + k) = 0) ∧ ∀ j, j < p / 2 ∨ p / 2 + n ≤ j → m j = s.mem j := by
  induction n with
  | zero => intro s p _ _; exact ⟨s.mem, rfl, fun k hk => absurd hk (by omega), fun _ _ => rfl⟩
  | succ n ih =>
    intro s p hp hw
    obtain ⟨m, e, h1, h2⟩ := ih (s := s) hp (by omega)
    refine ⟨updW m (p / 2 + n) 0, ?_, ?_, ?_⟩
    · rw [zero, e, Res.ok_bind, wrF_ok _ hp (by show _ < s.words; omega)]; rfl
    · intro k hk
      by_cases h : k = n
      · rw [h, updW_same]
      · rw [updW_other _ _ (by omega)]; exact h1 k (by omega)
    · intro j hj
      rw [updW_other _ _ (by omega)]; exact h2 j (by omega)

/-- The heap after initialisation. -/
theorem init_inv {s s' : VM} (ok : HeapOk s) (run : initializeHeap s = .ok s') :
    ∃ h t, Inv s' h t h 0 [] := by
  obtain ⟨big, small, fits, words⟩ := ok
  generalize hh : (s.hpb.toNat + 15) / 16 * 16 = h at *
  have hst : heapStart s = h := by unfold heapStart alignUp; omega
  rw [initializeHeap, if_pos big] at run
  simp only [hst] at run
  have he : alignDown (h + s.hpSize.toNat) % 65536 = (h + s.hpSize.toNat) / 16 * 16 := by
    unfold alignDown; omega
  rw [he, if_neg (by omega)] at run
  generalize ht : (h + s.hpSize.toNat) / 16 * 16 - 16 = t at *
  obtain ⟨m1, e1, z1, o1⟩ := zero_eq 4 (s := s) (p := t) (by omega) (by omega)
  rw [e1, Res.ok_bind, setAddr, wrF_ok _ (by omega) (by show _ < s.words; omega), Res.ok_bind,
    setUse_ok _ (by omega) (by show _ < s.words; omega), Res.ok_bind,
    setBack_ok _ (by omega) (by show _ < s.words; omega), Res.ok_bind] at run
  obtain ⟨m2, e2, z2, o2⟩ := zero_eq 8 (s := { s with
    mem := updW (updW (updW m1 (t / 2 + 2)
      (BitVec.ofNat 16 ((h + s.hpSize.toNat) / 16 * 16 + 65536 - h - 16))) (t / 2)
      (BitVec.ofNat 16 ((updW m1 (t / 2 + 2)
        (BitVec.ofNat 16 ((h + s.hpSize.toNat) / 16 * 16 + 65536 - h - 16)) (t / 2)).toNat % 32768 +
        if true = true then 32768 else 0))) (t / 2 + 1)
      (BitVec.ofNat 16 ((updW (updW m1 (t / 2 + 2)
        (BitVec.ofNat 16 ((h + s.hpSize.toNat) / 16 * 16 + 65536 - h - 16))) (t / 2)
        (BitVec.ofNat 16 ((updW m1 (t / 2 + 2)
          (BitVec.ofNat 16 ((h + s.hpSize.toNat) / 16 * 16 + 65536 - h - 16)) (t / 2)).toNat %
            32768 + if true = true then 32768 else 0)) (t / 2 + 1)).toNat / 32768 * 32768 +
        ((h + s.hpSize.toNat) / 16 * 16 + 65536 - h - 16) % 65536 % 32768)) }) (p := h)
    (by omega) (by show _ ≤ s.words; omega)
  rw [e2, Res.ok_bind, setFwd_ok _ (by omega) (by show _ < s.words; omega), Res.ok_bind] at run
  simp only [Res.pure_eq, Res.ok.injEq] at run
  subst run
  have zz := z2 0 (by omega)
  simp only [Nat.add_zero] at zz
  refine ⟨h, t, hh.symm, ht.symm, by show h + 32 ≤ h + s.hpSize.toNat; omega, by omega,
    by show h + s.hpSize.toNat < _; omega, by show h + s.hpSize.toNat ≤ 2 * s.words; omega, .nil,
    by omega, ?_, Or.inr ⟨by omega, rfl, ?_, ?_, ?_, ?_, ?_⟩⟩
  · show _ ≤ (updW m2 _ _ _).toNat
    rw [updW_other _ _ (by omega), o2 _ (by omega)]
    simp only
    rw [updW_other _ _ (by omega), updW_same, BitVec.toNat_ofNat]
    simp; omega
  · show (updW m2 _ _ _).toNat = _
    rw [updW_same, zz, BitVec.toNat_ofNat]
    simp; omega
  · show (updW m2 _ _ _).toNat % _ = _
    rw [updW_other _ _ (by omega), z2 1 (by omega)]; rfl
  · show (updW m2 _ _ _).toNat = _
    rw [updW_other _ _ (by omega), z2 2 (by omega)]; simp
  · show updW m2 _ _ _ = _
    rw [updW_other _ _ (by omega), z2 4 (by omega)]
  · show updW m2 _ _ _ = _
    rw [updW_other _ _ (by omega), z2 5 (by omega)]

end Pas.Heap
