import Verif.Lemmas.Memory
import Verif.Model.Init

/-! Total-correctness predicate for `Res` and memory-range lemmas. -/
namespace Pas
open Spec

/-- The computation succeeds with a result satisfying `p`. -/
def Res.Ok {α : Type} (r : Res α) (p : α → Prop) : Prop := ∃ a, r = .ok a ∧ p a

theorem Res.Ok.bind {α β : Type} {r : Res α} {f : α → Res β} {p : α → Prop} {q : β → Prop}
    (h : r.Ok p) (hf : ∀ a, p a → (f a).Ok q) : (r >>= f).Ok q := by
  obtain ⟨a, rfl, ha⟩ := h
  exact hf a ha

theorem Res.Ok.imp {α : Type} {r : Res α} {p q : α → Prop} (h : r.Ok p) (hq : ∀ a, p a → q a) :
    r.Ok q := by
  obtain ⟨a, e, ha⟩ := h
  exact ⟨a, e, hq a ha⟩

theorem Res.Ok.pure {α : Type} {a : α} {p : α → Prop} (h : p a) : (Res.ok a).Ok p := ⟨a, rfl, h⟩

/-- `s'` differs from `s` only in memory words with index at least `lo`. -/
def ModsFrom (lo : Nat) (s s' : VM) : Prop :=
  ∃ m, s' = { s with mem := m } ∧ ∀ i < lo, m i = s.mem i

theorem ModsFrom.refl (lo : Nat) (s : VM) : ModsFrom lo s s := ⟨s.mem, rfl, fun _ _ => rfl⟩

theorem ModsFrom.trans {lo : Nat} {a b c : VM} (h : ModsFrom lo a b) (h' : ModsFrom lo b c) :
    ModsFrom lo a c := by
  obtain ⟨m, rfl, hm⟩ := h
  obtain ⟨m', rfl, hm'⟩ := h'
  exact ⟨m', rfl, fun i hi => (hm' i hi).trans (hm i hi)⟩

theorem wr_mods {lo i : Nat} {s0 s : VM} {w : Word} (h : ModsFrom lo s0 s) (hi : lo ≤ i)
    (hw : i < s0.words) : (s.wr i w).Ok (ModsFrom lo s0) := by
  obtain ⟨m, rfl, hm⟩ := h
  refine ⟨_, VM.wr_eq _ _ (by exact hw), ?_⟩
  refine ⟨_, rfl, fun j hj => ?_⟩
  show updW m i w j = _
  rw [updW_other _ _ (by omega)]
  exact hm j hj

theorem wrF_mods {lo p k v : Nat} {s0 s : VM} (h : ModsFrom lo s0 s) (hp : p % 2 = 0)
    (hi : lo ≤ p / 2 + k) (hw : p / 2 + k < s0.words) :
    (Heap.wrF s p k v).Ok (ModsFrom lo s0) := by
  rw [Heap.wrF, if_pos hp]
  exact wr_mods h hi hw

theorem rdF_mods {lo p k : Nat} {s0 s : VM} (h : ModsFrom lo s0 s) (hp : p % 2 = 0)
    (hw : p / 2 + k < s0.words) : (Heap.rdF s p k).Ok (fun _ => True) := by
  obtain ⟨m, rfl, hm⟩ := h
  rw [Heap.rdF, if_pos hp, VM.rd_eq _ (by exact hw)]
  exact ⟨_, rfl, trivial⟩

theorem setFwd_mods {lo p v : Nat} {s0 s : VM} (h : ModsFrom lo s0 s) (hp : p % 2 = 0)
    (hi : lo ≤ p / 2) (hw : p / 2 < s0.words) : (Heap.setFwd s p v).Ok (ModsFrom lo s0) :=
  (rdF_mods h hp hw).bind fun _ _ => wrF_mods h hp hi hw

theorem setUse_mods {lo p : Nat} {b : Bool} {s0 s : VM} (h : ModsFrom lo s0 s) (hp : p % 2 = 0)
    (hi : lo ≤ p / 2) (hw : p / 2 < s0.words) : (Heap.setUse s p b).Ok (ModsFrom lo s0) :=
  (rdF_mods h hp hw).bind fun _ _ => wrF_mods h hp hi hw

theorem setBack_mods {lo p v : Nat} {s0 s : VM} (h : ModsFrom lo s0 s) (hp : p % 2 = 0)
    (hi : lo ≤ p / 2 + 1) (hw : p / 2 + 1 < s0.words) :
    (Heap.setBack s p v).Ok (ModsFrom lo s0) :=
  (rdF_mods h hp hw).bind fun _ _ => wrF_mods h hp hi hw

theorem zero_mods {lo p n : Nat} {s0 s : VM} (h : ModsFrom lo s0 s) (hp : p % 2 = 0)
    (hi : lo ≤ p / 2) (hw : p / 2 + n ≤ s0.words) : (Heap.zero s p n).Ok (ModsFrom lo s0) := by
  induction n with
  | zero => exact ⟨s, rfl, h⟩
  | succ n ih =>
    rw [Heap.zero]
    exact (ih (by omega)).bind fun s1 h1 => wrF_mods h1 hp (by omega) (by omega)

theorem copyIn_spec : ∀ (bs : List Byte) (s : VM) (a : Nat), a + bs.length ≤ 2 * s.words →
    ∃ m, copyIn s a bs = .ok { s with mem := m } ∧
      (∀ k (h : k < bs.length), byte m (a + k) = bs[k]) ∧
      (∀ b, (b < a ∨ a + bs.length ≤ b) → byte m b = byte s.mem b)
  | [], s, a, _ => ⟨s.mem, rfl, fun k h => absurd h (Nat.not_lt_zero k), fun _ _ => rfl⟩
  | b :: bs, s, a, h => by
      simp only [List.length_cons] at h
      have hw : s.wrB a b = .ok { s with mem := updB s.mem a b } := by
        rw [VM.wrB, if_pos (by omega)]
      obtain ⟨m, h1, h2, h3⟩ := copyIn_spec bs { s with mem := updB s.mem a b } (a + 1) (by
        show a + 1 + bs.length ≤ 2 * s.words; omega)
      refine ⟨m, by rw [copyIn, hw]; exact h1, ?_, ?_⟩
      · intro k hk
        cases k with
        | zero =>
          show byte m a = b
          rw [h3 a (.inl (by omega))]
          show byte (updB s.mem a b) a = b
          rw [byte_updB, if_pos rfl]
        | succ k =>
          have := h2 k (by simpa using hk)
          rw [show a + (k + 1) = a + 1 + k by omega, this]; rfl
      · intro c hc
        simp only [List.length_cons] at hc
        rw [h3 c (by omega)]
        show byte (updB s.mem a b) c = _
        rw [byte_updB, if_neg (by omega)]

end Pas
