import Verif.Lemmas.OptDriver

/-! Relocations through the passes of the optimizer. -/
namespace Pas.Popt

/-- What a relocation says, apart from its place. -/
def relKey (r : Reloc) : Nat × Nat := (r.sym, r.kind)

def sizeOf' (l : List OpType) : Nat := (l.map addSize).sum

theorem sizeOf'_append (l r : List OpType) : sizeOf' (l ++ r) = sizeOf' l + sizeOf' r := by
  unfold sizeOf'; rw [List.map_append, List.sum_append]

theorem addSize_pos (i : OpType) : 1 ≤ addSize i := by unfold addSize; omega

structure RelOk (rels : List Reloc) (out : List OpType) (outOff : Nat) (inRel outRel : List Reloc) :
    Prop where
  off : outOff = sizeOf' out
  sub : List.Sublist (outRel.map relKey ++ inRel.map relKey) (rels.map relKey)
  at_ : ∀ r ∈ outRel, ∃ k, k < out.length ∧ r.offset = sizeOf' (out.take k)
  sorted : outRel.Pairwise (fun a b => a.offset < b.offset)
  below : ∀ r ∈ outRel, r.offset < outOff

def PassRel (rels : List Reloc) (s : Pass) : Prop := RelOk rels s.out s.outOff s.inRel s.outRel

theorem take_lt {l : List OpType} {x : OpType} {r : Nat}
    (h : ∃ k, k < l.length ∧ r = sizeOf' (l.take k)) :
    ∃ k, k < (l ++ [x]).length ∧ r = sizeOf' ((l ++ [x]).take k) := by
  obtain ⟨k, hk, e⟩ := h
  exact ⟨k, by rw [List.length_append]; omega, by rw [List.take_append_of_le_length (by omega)]; exact e⟩

theorem passRel_emit {rels : List Reloc} {s : Pass} (h : PassRel rels s) (x : OpR) :
    PassRel rels (emit s x) := by
  unfold PassRel at h ⊢
  have hpos := addSize_pos x.ins
  have hoff : ∀ o, o = sizeOf' s.out → o + addSize x.ins = sizeOf' (s.out ++ [x.ins]) := by
    intro o ho
    rw [sizeOf'_append, ho]; simp [sizeOf']
  have keep : RelOk rels (s.out ++ [x.ins]) (s.outOff + addSize x.ins) s.inRel s.outRel :=
    ⟨hoff _ h.off, h.sub, fun r hr => take_lt (h.at_ r hr), h.sorted,
      fun r hr => by have := h.below r hr; omega⟩
  unfold emit
  cases hr : s.inRel with
  | nil => rw [hr] at keep; simpa [hr] using keep
  | cons r rest =>
    dsimp only
    by_cases ho : r.offset = x.off
    · rw [if_pos ho]
      dsimp only
      refine ⟨hoff _ h.off, ?_, ?_, ?_, ?_⟩
      · have hs := h.sub
        rw [hr] at hs
        simp only [List.map_append, List.map_cons, List.map_nil, List.append_assoc] at hs ⊢
        exact hs
      · intro r' hr'
        rcases List.mem_append.mp hr' with hr' | hr'
        · exact take_lt (h.at_ r' hr')
        · rw [List.mem_singleton.mp hr']
          refine ⟨s.out.length, by simp, ?_⟩
          rw [List.take_append_of_le_length (Nat.le_refl _), List.take_length]
          exact h.off
      · rw [List.pairwise_append]
        refine ⟨h.sorted, List.pairwise_singleton _ _, ?_⟩
        intro a ha b hb
        rw [List.mem_singleton.mp hb]
        exact h.below a ha
      · intro r' hr'
        rcases List.mem_append.mp hr' with hr' | hr'
        · have := h.below r' hr'; omega
        · rw [List.mem_singleton.mp hr']; show s.outOff < _; omega
    · rw [if_neg ho]
      rw [hr] at keep
      simpa [hr] using keep

theorem passRel_discard {rels : List Reloc} {s : Pass} (h : PassRel rels s) (x : OpR) :
    PassRel rels (discardRel s x) := by
  unfold discardRel
  cases hr : s.inRel with
  | nil => exact h
  | cons r rest =>
    dsimp only
    split
    · refine ⟨h.off, ?_, h.at_, h.sorted, h.below⟩
      have hs := h.sub
      rw [hr] at hs
      refine List.Sublist.trans ?_ hs
      exact List.Sublist.append (List.Sublist.refl _) (List.sublist_cons_self ..)
    · exact h

theorem passRel_read {rels : List Reloc} {s : Pass} (h : PassRel rels s) : PassRel rels (readOp s).2 := by
  unfold readOp
  split <;> exact h

theorem passRel_fill {rels : List Reloc} : ∀ (n : Nat) {s : Pass}, PassRel rels s → PassRel rels (fill n s) := by
  intro n
  induction n with
  | zero => intro s h; exact h
  | succ n ih =>
    intro s h
    unfold fill
    exact ih (passRel_read h)

theorem passRel_update {rels : List Reloc} {s : Pass} (h : PassRel rels s) : PassRel rels (update s).1 := by
  unfold update
  cases s.table with
  | nil => exact h
  | cons x rest =>
    dsimp only
    refine passRel_fill _ ?_
    show PassRel rels (if x.ins.op ≠ Op.nop.toByte then emit s x else discardRel s x)
    split
    · exact passRel_emit h x
    · exact passRel_discard h x

theorem passRel_advance {rels : List Reloc} {body : Nat → Table → Res (Table × Nat)} :
    ∀ (fuel : Nat) (s s' : Pass), PassRel rels s → advance body fuel s = .ok s' → PassRel rels s' := by
  intro fuel
  induction fuel with
  | zero => intro s s' _ h; cases h
  | succ fuel ih =>
    intro s s' hs h
    unfold advance at h
    rw [Res.bind_eq_ok] at h
    obtain ⟨t, _, h⟩ := h
    have hu : PassRel rels (update { s with table := t }).1 := passRel_update hs
    dsimp only at h
    split at h
    · cases h; exact hu
    · exact ih _ _ hu h

theorem passRel_skip {rels : List Reloc} : ∀ (fuel : Nat) (s s' : Pass), PassRel rels s →
    skipLead fuel s = .ok s' → PassRel rels s' := by
  intro fuel
  induction fuel with
  | zero => intro s s' _ h; cases h
  | succ fuel ih =>
    intro s s' hs h
    unfold skipLead at h
    have he := passRel_emit (passRel_read hs) (readOp s).1
    dsimp only at h
    split at h
    · exact ih _ _ he h
    · cases h; exact he

/-- The relocations of a program after a pass. -/
structure RelKept (rels : List Reloc) (out : List OpType) (rels' : List Reloc) : Prop where
  sub : List.Sublist (rels'.map relKey) (rels.map relKey)
  at_ : ∀ r ∈ rels', ∃ k, k < out.length ∧ r.offset = sizeOf' (out.take k)
  sorted : rels'.Pairwise (fun a b => a.offset < b.offset)

theorem pass_rel {body : Nat → Table → Res (Table × Nat)} {fuel : Nat} {prog : List OpType}
    {rels : List Reloc} {r : List OpType × List Reloc × Bool} (h : pass body fuel prog rels = .ok r) :
    RelKept rels r.1 r.2.1 := by
  unfold pass setup at h
  rw [Res.bind_eq_ok] at h
  obtain ⟨s, h1, h⟩ := h
  rw [Res.bind_eq_ok] at h1
  obtain ⟨s0, h0, h1⟩ := h1
  rw [Res.bind_eq_ok] at h
  obtain ⟨s', h2, h⟩ := h
  cases h
  cases h1
  have b0 : PassRel rels ⟨[], prog, 0, [], 0, rels, []⟩ :=
    ⟨rfl, by simp, by simp, by simp, by simp⟩
  have := passRel_advance fuel _ s' (passRel_fill WINDOW (passRel_skip fuel _ s0 b0 h0)) h2
  refine ⟨?_, this.at_, this.sorted⟩
  exact List.Sublist.trans (List.sublist_append_left ..) this.sub

theorem optimize_rel {fuel : Nat} {prog : List OpType} {rels : List Reloc}
    {r : List OpType × List Reloc × Bool} (h : optimize fuel prog rels = .ok r) :
    RelKept rels r.1 r.2.1 := by
  unfold optimize at h
  rw [Res.bind_eq_ok] at h
  obtain ⟨⟨p1, r1, e1⟩, h1, h⟩ := h
  rw [Res.bind_eq_ok] at h
  obtain ⟨⟨p2, r2, e2⟩, h2, h⟩ := h
  cases h
  have k1 := pass_rel h1
  have k2 := pass_rel h2
  exact ⟨k2.sub.trans k1.sub, k2.at_, k2.sorted⟩

end Pas.Popt
