import Verif.Model.LinkFree
import Verif.Props.Link

/-! C88: the symbols of the linker are released. -/
namespace Pas.Link
open Pas.Spec Pas.Poff

private theorem locate_parts (heap : List Sym) (s : Sym) (l : List Nat) :
    (locate heap s l).1 ++ (locate heap s l).2.1 = l := by
  induction l with
  | nil => rfl
  | cons id ids ih =>
    simp only [locate]
    split
    · rfl
    · split
      · rfl
      · split
        · rfl
        · simp [ih]
    · simp [ih]

/-- Every container is in the list exactly once. -/
private def Listed (t : SymTab) : Prop := t.order.Perm (List.range t.heap.length)

private theorem insert_listed {t : SymTab} (h : Listed t) (s : Sym) : Listed (insertSymbol t s).2 := by
  have key : ∀ pre rest, pre ++ rest = t.order →
      (pre ++ t.heap.length :: rest).Perm (List.range (t.heap ++ [s]).length) := by
    intro pre rest hp
    rw [List.length_append, List.length_singleton, List.range_succ]
    refine List.perm_middle.trans ?_
    refine List.Perm.trans ?_ List.perm_append_comm
    exact List.Perm.cons _ (hp ▸ h)
  have hp := locate_parts t.heap s t.order
  unfold insertSymbol
  split
  · dsimp only
    split
    · split
      · exact h
      · simpa [Listed] using h
    · split <;> exact h
  · rename_i pre rest b _ heq
    rw [heq] at hp
    exact key _ _ hp

private theorem loop_listed (pc so : Nat) : ∀ (ss : List Sym) (i : Nat) (t t' : SymTab), Listed t →
    mergeSymLoop pc so ss i t = .ok t' → Listed t' := by
  intro ss
  induction ss with
  | nil => intro i t t' h e; simp only [mergeSymLoop, Res.ok.injEq] at e; exact e ▸ h
  | cons s ss ih =>
    intro i t t' h e
    simp only [mergeSymLoop] at e
    obtain ⟨u, h1, h2⟩ := Res.bind_eq_ok.1 e
    refine ih _ u t' ?_ h2
    have := insert_listed h (offsetSymbol s pc)
    have hadd : ∀ (t : SymTab) id k, addToList t id k = .ok u → u.order = t.order ∧ u.heap = t.heap := by
      intro t id k
      have : ∀ a : Nat, (if k < a then Res.ok { t with
          slots := fun i => if i = k then some id else t.slots i
          alloc := a } else .ub) = .ok u → u.order = t.order ∧ u.heap = t.heap := by
        intro a hx
        split at hx
        · cases hx; exact ⟨rfl, rfl⟩
        · cases hx
      exact this _
    obtain ⟨e1, e2⟩ := hadd _ _ _ h1
    simpa only [Listed, e1, e2] using this

private theorem all_listed : ∀ (us : List (List Sym × Nat)) (n : Nat) (t : SymTab) (r : SymTab × Nat), Listed t →
    mergeAll us n t = .ok r → Listed r.1 := by
  intro us
  induction us with
  | nil => intro n t r h e; simp only [mergeAll, Res.ok.injEq] at e; exact e ▸ h
  | cons u us ih =>
    intro n t r h e
    simp only [mergeAll] at e
    obtain ⟨x, h1, h2⟩ := Res.bind_eq_ok.1 e
    refine ih _ _ r ?_ h2
    simp only [mergeSymbols] at h1
    obtain ⟨y, g1, g2⟩ := Res.bind_eq_ok.1 h1
    simp only [Res.ok.injEq] at g2
    subst g2
    exact loop_listed _ _ _ _ _ _ h g1

private theorem free_ok : ∀ (l : List Nat) (live : Nat → Bool), l.Nodup → (∀ x ∈ l, live x = true) →
    ∃ m, freeSymbols l live = .ok m ∧ ∀ x, m x = (live x && decide (x ∉ l)) := by
  intro l
  induction l with
  | nil => intro live _ _; exact ⟨live, rfl, by simp⟩
  | cons a l ih =>
    intro live hn hl
    rw [List.nodup_cons] at hn
    obtain ⟨m, h1, h2⟩ := ih (fun id => if id = a then false else live id) hn.2 (by
      intro x hx
      have : x ≠ a := fun h => hn.1 (h ▸ hx)
      simp [this, hl x (by simp [hx])])
    refine ⟨m, by simp only [freeSymbols, hl a (by simp), if_true, h1], fun x => ?_⟩
    rw [h2 x]
    by_cases hx : x = a <;> simp [hx]

/-- C88: whatever symbols the linked files have, every container the linker has made for them is released once, none
is used after that, and none is left; and until then every symbol number refers to a container that exists. -/
theorem C88_symbols (us : List (List Sym × Nat)) :
    ∃ t n m, mergeAll us 0 SymTab.empty = .ok (t, n) ∧ releaseSymbols t = .ok m ∧ (∀ id, m id = false) ∧
      ∀ i, i < (symbols us).length → ∃ id, t.slots i = some id ∧ t.allocated id = true := by
  obtain ⟨t, h, hI⟩ := mergeAll_inv us SymTab.empty [] inv_empty
  rw [List.nil_append] at hI
  have hl : Listed t := all_listed us 0 SymTab.empty _ (by simp [Listed, SymTab.empty]) (by simpa using h)
  obtain ⟨m, h1, h2⟩ := free_ok t.order t.allocated (hl.nodup_iff.2 List.nodup_range) (by
    intro x hx
    simpa [SymTab.allocated] using hI.ids x hx)
  refine ⟨t, _, m, by simpa using h, h1, fun id => ?_, fun i hi => ?_⟩
  · rw [h2 id]
    have : id ∈ t.order ↔ id < t.heap.length := by rw [hl.mem_iff, List.mem_range]
    by_cases hx : id < t.heap.length <;> simp [SymTab.allocated, this, hx]
  · obtain ⟨id, g1, g2, _⟩ := hI.slots i hi
    exact ⟨id, g2, by simpa [SymTab.allocated] using hI.ids id g1⟩

/-- Two files with five symbols, for which three containers are made and released. -/
example : ∃ t n, mergeAll sampleUnits 0 SymTab.empty = .ok (t, n) ∧ n = 5 ∧ t.heap.length = 3 ∧ t.order.length = 3 :=
  ⟨_, _, rfl, rfl, rfl, rfl⟩

end Pas.Link
