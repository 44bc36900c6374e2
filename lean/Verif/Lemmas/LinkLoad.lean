import Verif.Lemmas.LinkRel
import Verif.Props.Encoding
/-! Loading the input files. -/
namespace Pas.Link
open Pas.Spec Pas.Poff

theorem offsetRel_spec (r : Rel) (pc so : Nat) (hk : r.info.toNat % 256 = 1 ∨ r.info.toNat % 256 = 2)
    (hs : r.info.toNat / 256 + so < 2 ^ 24) (ho : r.offset.toNat + pc < 2 ^ 32) :
    (offsetRel r pc so).type = r.type ∧ (offsetRel r pc so).sym.toNat = r.info.toNat / 256 + so ∧
      (offsetRel r pc so).offset.toNat = r.offset.toNat + pc ∧ (r.type = 1 ∨ r.type = 2) := by
  have ht := rel_type r
  have hsy := rel_sym r
  have hk' : r.type = 1 ∨ r.type = 2 := by
    rcases hk with h | h
    · exact .inl (BitVec.eq_of_toNat_eq (by rw [ht, h]; rfl))
    · exact .inr (BitVec.eq_of_toNat_eq (by rw [ht, h]; rfl))
  rw [offsetRel, if_pos hk']
  have hT : (r.type &&& 0xff#32).toNat = r.info.toNat % 256 := by
    have : (0xff#32).toNat = 2 ^ 8 - 1 := rfl
    rw [BitVec.toNat_and, this, Nat.and_two_pow_sub_one_eq_mod, ht]
    omega
  have hS : (r.sym + BitVec.ofNat 32 so).toNat = r.info.toNat / 256 + so := by
    rw [BitVec.toNat_add, BitVec.toNat_ofNat, hsy]
    omega
  have hI : ((r.sym + BitVec.ofNat 32 so) <<< 8 ||| (r.type &&& 0xff#32)).toNat =
      (r.info.toNat / 256 + so) * 256 + r.info.toNat % 256 := by
    rw [BitVec.toNat_or, BitVec.toNat_shiftLeft, hS, hT, Nat.shiftLeft_eq, Nat.mod_eq_of_lt (by omega),
      ← Nat.shiftLeft_eq, ← Nat.shiftLeft_add_eq_or_of_lt (by omega), Nat.shiftLeft_eq]
  refine ⟨?_, ?_, ?_, hk'⟩
  · apply BitVec.eq_of_toNat_eq
    rw [rel_type, ht]
    simp only
    rw [hI]
    omega
  · rw [rel_sym]
    simp only
    rw [hI]
    omega
  · simp only
    rw [BitVec.toNat_add, BitVec.toNat_ofNat]
    omega

theorem mergeLine_eq (pc fn : Nat) (l : Word × Word × U32) : mergeLine pc fn l =
    (l.1, BitVec.ofNat 16 (l.2.1.toNat + fn), BitVec.ofNat 32 (l.2.2.toNat + pc)) := by
  rw [mergeLine]
  refine Prod.ext rfl (Prod.ext ?_ ?_)
  · apply BitVec.eq_of_toNat_eq
    simp [BitVec.toNat_add, BitVec.toNat_ofNat]
  · apply BitVec.eq_of_toNat_eq
    simp [BitVec.toNat_add, BitVec.toNat_ofNat]

/-- Acceptable headers so far. -/
def Heads (ps : List Part) : Prop :=
  (∀ p ∈ ps, p.inp.ftype = 3#8 ∨ p.inp.ftype = 4#8) ∧
    (ps.filter fun p => p.inp.ftype = 3#8).length ≤ 1

/-- After loading the parts `xs`; the next one goes to `q`. -/
structure Loaded (st : State) (xs : List (Part × Place)) (q : Place) : Prop where
  rodata : st.rodata = xs.flatMap (·.1.inp.rodata)
  roLen : st.rodata.length = q.ro
  prog : st.prog = encode (allInsns xs)
  progLen : st.prog.length = q.base
  pc : st.pcOffset = q.base
  files : st.files = xs.flatMap (·.1.inp.files)
  fnLen : st.files.length = q.fn
  fn : st.fnOffset = q.fn
  lines : st.lines = xs.flatMap fun x => x.1.inp.lines.map (mergeLine x.2.base x.2.fn)
  rels : st.rels = xs.flatMap fun x => x.1.inp.rels.map (offsetRel · x.2.base x.2.sym)
  syms : Inv st.syms (allSyms xs)
  symLen : (allSyms xs).length = q.sym
  sym : st.symOffset = q.sym
  found : st.progFound = true ↔ ∃ x ∈ xs, x.1.inp.ftype = 3#8
  start : ∀ x ∈ xs, x.1.inp.ftype = 3#8 →
    st.entry = BitVec.ofNat 32 (x.1.inp.entry.toNat + x.2.base) ∧ st.name = x.1.inp.name
  heads : Heads (xs.map (·.1))

theorem loaded_init : Loaded State.init [] ⟨0, 0, 0, 0⟩ := by
  constructor <;> first | exact inv_empty | simp [State.init, allInsns, allSyms, Heads, encode_eq]

theorem moved_encode_length (l : List OpType) (k ro : Nat) :
    (encode (l.map fun i => movedI i k ro)).length = (encode l).length := by
  rw [encode_length, encode_length, List.map_map]
  congr 1
  apply List.map_congr_left
  intro i _
  exact byteSize_movedI i k ro

theorem loadFile_step {st : State} {xs : List (Part × Place)} {q : Place} (h : Loaded st xs q)
    {p : Part} (hp : p.OK) (ht : p.inp.ftype = 3#8 ∧ st.progFound = false ∨ p.inp.ftype = 4#8) :
    ∃ st', loadFile st p.inp = .ok (some st') ∧ Loaded st' (xs ++ [(p, q)]) (q.next p) := by
  obtain ⟨t, hm, hI⟩ := mergeSymbols_inv q.base p.inp.syms st.syms (allSyms xs) h.syms
  have hmp (out : List Byte) := C29_merge_partial p.insns hp.insns hp.signed hp.once hp.last p.tail out q.base q.ro
  rw [← hp.prog] at hmp
  have hmf : mergeFiles st.files p.inp.files =
      .ok (st.files ++ p.inp.files, st.files.length + p.inp.files.length) := by
    rw [mergeFiles, if_neg hp.files]
  have hins : allInsns (xs ++ [(p, q)]) =
      allInsns xs ++ p.insns.map fun i => movedI i q.base q.ro := by simp [allInsns]
  have hsy : allSyms (xs ++ [(p, q)]) = allSyms xs ++ p.inp.syms.map (movedSym q.base) := by
    simp [allSyms]
  have core (st1 : State) (hc : checkHeader st p.inp = some st1)
      (h1 : st1.rodata = st.rodata) (h2 : st1.prog = st.prog) (h3 : st1.files = st.files)
      (h4 : st1.lines = st.lines) (h5 : st1.syms = st.syms) (h6 : st1.rels = st.rels)
      (h7 : st1.pcOffset = st.pcOffset) (h8 : st1.fnOffset = st.fnOffset)
      (h9 : st1.symOffset = st.symOffset)
      (hf : st1.progFound = true ↔ ∃ x ∈ xs ++ [(p, q)], x.1.inp.ftype = 3#8)
      (hs : ∀ x ∈ xs ++ [(p, q)], x.1.inp.ftype = 3#8 →
        st1.entry = BitVec.ofNat 32 (x.1.inp.entry.toNat + x.2.base) ∧ st1.name = x.1.inp.name)
      (hh : Heads ((xs ++ [(p, q)]).map (·.1))) :
      ∃ st', loadFile st p.inp = .ok (some st') ∧ Loaded st' (xs ++ [(p, q)]) (q.next p) := by
    rw [loadFile, hc]
    simp only [h1, h2, h3, h5, h7, h8, h9, h.pc, h.fn, h.sym, h.roLen]
    rw [hmp, hmf, ← h.symLen, hm]
    simp only [Res.ok_bind]
    refine ⟨_, rfl, ?_⟩
    constructor
    · simp [h1, h.rodata]
    · simp [Place.next, h.roLen]
    · show st.prog ++ _ = _
      rw [hins, encode_append, h.prog]
    · show (st.prog ++ _).length = _
      rw [List.length_append, h.progLen, moved_encode_length]
      rfl
    · rfl
    · simp [h.files]
    · simp [Place.next, h.fnLen]
    · simp [Place.next, h.fnLen]
    · simp [h4, h.lines]
    · simp [h6, h.rels, h.symLen]
    · rw [hsy]
      exact hI
    · rw [hsy]
      simp [Place.next, h.symLen]
    · simp [Place.next, h.symLen]
    · exact hf
    · exact hs
    · exact hh
  have hheads := h.heads
  rcases ht with ⟨ht, hnf⟩ | ht
  · have hno : ∀ x ∈ xs, ¬ x.1.inp.ftype = 3#8 := by
      intro x hx h3
      have := h.found.2 ⟨x, hx, h3⟩
      rw [hnf] at this
      cases this
    have hz : ((xs.map (·.1)).filter fun p => p.inp.ftype = 3#8) = [] := by
      rw [List.filter_eq_nil_iff]
      intro y hy
      obtain ⟨x, hx, rfl⟩ := List.mem_map.1 hy
      simpa using hno x hx
    refine core ⟨st.rodata, st.prog, st.files, st.lines, p.inp.entry + BitVec.ofNat 32 st.pcOffset,
      p.inp.name, true, st.syms, st.rels, st.pcOffset, st.fnOffset, st.symOffset⟩ ?_ rfl rfl rfl rfl
      rfl rfl rfl rfl rfl ?_ ?_ ?_
    · rw [checkHeader, if_pos ht, hnf]
      rfl
    · simp [ht]
    · intro x hx h3
      rcases List.mem_append.1 hx with hx | hx
      · exact absurd h3 (hno x hx)
      · simp only [List.mem_singleton] at hx
        subst hx
        refine ⟨?_, rfl⟩
        apply BitVec.eq_of_toNat_eq
        simp [BitVec.toNat_add, BitVec.toNat_ofNat, h.pc]
    · constructor
      · intro y hy
        simp only [List.map_append, List.map_cons, List.map_nil, List.mem_append,
          List.mem_singleton] at hy
        rcases hy with hy | rfl
        · exact hheads.1 y hy
        · exact .inl ht
      · rw [List.map_append, List.filter_append, hz]
        simp [ht]
  · have h43 : ¬ p.inp.ftype = 3#8 := by rw [ht]; decide
    refine core st ?_ rfl rfl rfl rfl rfl rfl rfl rfl rfl ?_ ?_ ?_
    · rw [checkHeader, if_neg h43, if_neg (by simp [ht])]
    · rw [h.found]
      simp [ht]
    · intro x hx h3
      rcases List.mem_append.1 hx with hx | hx
      · exact h.start x hx h3
      · simp only [List.mem_singleton] at hx
        subst hx
        exact absurd h3 h43
    · constructor
      · intro y hy
        simp only [List.map_append, List.map_cons, List.map_nil, List.mem_append,
          List.mem_singleton] at hy
        rcases hy with hy | rfl
        · exact hheads.1 y hy
        · exact .inr ht
      · rw [List.map_append, List.filter_append]
        simpa [h43] using hheads.2

/-- The place after some parts. -/
def after (q : Place) : List Part → Place
  | [] => q
  | p :: ps => after (q.next p) ps

theorem loadFiles_spec (ps : List Part) : ∀ (st : State) (xs : List (Part × Place)) (q : Place),
    Loaded st xs q → (∀ p ∈ ps, p.OK) →
    (∃ st', loadFiles st (ps.map (·.inp)) = .ok (some st') ∧
      Loaded st' (xs ++ placesFrom q ps) (after q ps)) ∨
    (loadFiles st (ps.map (·.inp)) = .ok none ∧ ¬ Heads (xs.map (·.1) ++ ps)) := by
  induction ps with
  | nil =>
    intro st xs q h _
    exact .inl ⟨st, rfl, by simpa [placesFrom, after] using h⟩
  | cons p ps ih =>
    intro st xs q h hok
    by_cases ht : p.inp.ftype = 3#8 ∧ st.progFound = false ∨ p.inp.ftype = 4#8
    · obtain ⟨st1, h1, hL⟩ := loadFile_step h (hok p (by simp)) ht
      have := ih st1 _ _ hL (fun x hx => hok x (by simp [hx]))
      rw [List.map_cons, loadFiles, h1]
      simp only [Res.ok_bind]
      simpa [placesFrom, after] using this
    · right
      have hc : checkHeader st p.inp = none := by
        rw [checkHeader]
        by_cases h3 : p.inp.ftype = 3#8
        · have : st.progFound = true := by
            cases hf : st.progFound
            · exact absurd (.inl ⟨h3, hf⟩) ht
            · rfl
          rw [if_pos h3, this]
          rfl
        · rw [if_neg h3, if_pos (fun h4 => ht (.inr h4))]
      refine ⟨?_, ?_⟩
      · rw [List.map_cons, loadFiles, loadFile, hc]
        rfl
      · rintro ⟨hh1, hh2⟩
        rcases hh1 p (by simp) with h3 | h4
        · have hf : st.progFound = true := by
            cases hf : st.progFound
            · exact absurd (.inl ⟨h3, hf⟩) ht
            · rfl
          obtain ⟨x, hx, hx3⟩ := h.found.1 hf
          rw [List.filter_append, List.length_append, List.filter_cons_of_pos (by simpa using h3),
            List.length_cons] at hh2
          have : 0 < ((xs.map (·.1)).filter fun p => p.inp.ftype = 3#8).length := by
            apply List.length_pos_of_mem (a := x.1)
            rw [List.mem_filter]
            exact ⟨List.mem_map_of_mem hx, by simpa using hx3⟩
          omega
        · exact ht (.inr h4)

theorem placesFrom_fst (q : Place) (ps : List Part) : (placesFrom q ps).map (·.1) = ps := by
  induction ps generalizing q with
  | nil => rfl
  | cons p ps ih => simp [placesFrom, ih]

end Pas.Link
