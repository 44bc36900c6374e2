import Verif.Lemmas.LinkLoad
/-! The whole linker. -/
namespace Pas.Link
open Pas.Spec Pas.Poff

theorem placesFrom_split {q0 : Place} {ps : List Part} {a b : List (Part × Place)} {p : Part} {q : Place}
    (h : placesFrom q0 ps = a ++ (p, q) :: b) :
    q.base = q0.base + (encode (allInsns a)).length ∧ q.sym = q0.sym + (allSyms a).length ∧
      q.ro = q0.ro + (a.flatMap (·.1.inp.rodata)).length ∧
      q.fn = q0.fn + (a.flatMap (·.1.inp.files)).length := by
  induction ps generalizing q0 a with
  | nil => simp [placesFrom] at h
  | cons p0 ps ih =>
    cases a with
    | nil =>
      simp only [placesFrom, List.nil_append, List.cons.injEq, Prod.mk.injEq] at h
      obtain ⟨⟨-, rfl⟩, -⟩ := h
      simp [allInsns, allSyms, encode_eq]
    | cons x a =>
      simp only [placesFrom, List.cons_append, List.cons.injEq] at h
      obtain ⟨rfl, h⟩ := h
      obtain ⟨h1, h2, h3, h4⟩ := ih h
      have e1 : allInsns ((p0, q0) :: a) = (p0.insns.map fun i => movedI i q0.base q0.ro) ++ allInsns a := rfl
      have e2 : allSyms ((p0, q0) :: a) = p0.inp.syms.map (movedSym q0.base) ++ allSyms a := rfl
      refine ⟨?_, ?_, ?_, ?_⟩
      · rw [h1, e1, encode_append, List.length_append, moved_encode_length, Place.next]
        simp only
        omega
      · rw [h2, e2, List.length_append, List.length_map, Place.next]
        simp only
        omega
      · rw [h3, List.flatMap_cons, List.length_append, Place.next]
        simp only
        omega
      · rw [h4, List.flatMap_cons, List.length_append, Place.next]
        simp only
        omega

theorem allInsns_append (a b : List (Part × Place)) : allInsns (a ++ b) = allInsns a ++ allInsns b := by
  simp [allInsns]
theorem allSyms_append (a b : List (Part × Place)) : allSyms (a ++ b) = allSyms a ++ allSyms b := by
  simp [allSyms]
theorem allInsns_cons (p : Part) (q : Place) (b : List (Part × Place)) :
    allInsns ((p, q) :: b) = (p.insns.map fun i => movedI i q.base q.ro) ++ allInsns b := rfl
theorem allSyms_cons (p : Part) (q : Place) (b : List (Part × Place)) :
    allSyms ((p, q) :: b) = p.inp.syms.map (movedSym q.base) ++ allSyms b := rfl

theorem startOf_append (a b c : List OpType) (n : Nat) (h : n ≤ b.length) :
    startOf (a ++ (b ++ c)) (a.length + n) = (encode a).length + startOf b n := by
  rw [startOf, List.take_length_add_append, List.map_append, List.sum_append, encode_length,
    List.take_append_of_le_length h]
  rfl

theorem movedI_op (i : OpType) (k ro : Nat) : (movedI i k ro).op = i.op := by
  rw [movedI]
  split
  · rename_i o _; rw [moved]; cases operandKind o <;> rfl
  · rfl

theorem valueOf_congr {a b : Sym} (h : SameThing a b) (ss : List Sym) : valueOf a ss = valueOf b ss := by
  rw [valueOf, valueOf, defsOf_congr h]

theorem sameThing_moved (n : Nat) (s : Sym) : SameThing (movedSym n s) s :=
  ⟨movedSym_name n s, movedSym_stype n s⟩

/-- Total size of the code. -/
def codeSize (ps : List Part) : Nat := (ps.map fun p => (encode p.insns).length).sum
/-- Total number of symbols. -/
def symCount (ps : List Part) : Nat := (ps.map fun p => p.inp.syms.length).sum

theorem allInsns_length (q : Place) (ps : List Part) :
    (encode (allInsns (placesFrom q ps))).length = codeSize ps := by
  induction ps generalizing q with
  | nil => rfl
  | cons p ps ih =>
    rw [placesFrom, allInsns_cons, encode_append, List.length_append, moved_encode_length, ih]
    rfl

theorem allSyms_length (q : Place) (ps : List Part) :
    (allSyms (placesFrom q ps)).length = symCount ps := by
  induction ps generalizing q with
  | nil => rfl
  | cons p ps ih =>
    rw [placesFrom, allSyms_cons, List.length_append, List.length_map, ih]
    rfl

/-- Value of a relocation in the linked program. -/
def valR (ss : List Sym) (r : Rel) : Nat := valueOf (ss.getD r.sym.toNat default) ss

theorem rel_fits {ps : List Part} (hok : ∀ p ∈ ps, p.OK) (hpc : codeSize ps < 2 ^ 32)
    (hsy : symCount ps ≤ 2 ^ 24) {t : SymTab} (hI : Inv t (allSyms (places ps)))
    (hr : DefinedOnce (allSyms (places ps))) {p : Part} {q : Place} (hx : (p, q) ∈ places ps)
    {r : Rel} (hrel : r ∈ p.inp.rels) :
    Fits t (allInsns (places ps)) (offsetRel r q.base q.sym)
      (valR (allSyms (places ps)) (offsetRel r q.base q.sym)) ∧
    (offsetRel r q.base q.sym).offset.toNat = q.base + r.offset.toNat ∧
    valR (allSyms (places ps)) (offsetRel r q.base q.sym) =
      valueOf (p.inp.syms.getD (r.info.toNat / 256) default) (allSyms (places ps)) := by
  obtain ⟨a, b, hab⟩ := List.append_of_mem hx
  have hpl := placesFrom_split hab
  simp only [Nat.zero_add] at hpl
  obtain ⟨hb, hs, -, -⟩ := hpl
  have hp : p ∈ ps := by
    rw [← placesFrom_fst ⟨0, 0, 0, 0⟩ ps]
    exact List.mem_map_of_mem (f := (·.1)) hx
  have hp := hok p hp
  have hL := allInsns_length ⟨0, 0, 0, 0⟩ ps
  have hS := allSyms_length ⟨0, 0, 0, 0⟩ ps
  change (encode (allInsns (places ps))).length = _ at hL
  change (allSyms (places ps)).length = _ at hS
  obtain ⟨n, hn, ho, h16, hcall⟩ := hp.target r hrel
  have hsymr := hp.sym r hrel
  have eI : allInsns (places ps) =
      allInsns a ++ ((p.insns.map fun i => movedI i q.base q.ro) ++ allInsns b) := by
    rw [show places ps = a ++ (p, q) :: b from hab, allInsns_append, allInsns_cons]
  have eS : allSyms (places ps) = allSyms a ++ (p.inp.syms.map (movedSym q.base) ++ allSyms b) := by
    rw [show places ps = a ++ (p, q) :: b from hab, allSyms_append, allSyms_cons]
  have hoff : r.offset.toNat < (encode p.insns).length := by
    rw [ho, encode_length]
    have := startOf_succ hn
    have := byteSize_pos p.insns[n]
    have := startOf_le p.insns (n + 1)
    omega
  have hlt1 : r.offset.toNat + q.base < 2 ^ 32 := by
    rw [eI, encode_append, encode_append, List.length_append, List.length_append,
      moved_encode_length] at hL
    omega
  have hlt2 : q.sym + r.info.toNat / 256 < (allSyms (places ps)).length := by
    rw [eS, List.length_append, List.length_append, List.length_map]
    omega
  obtain ⟨o1, o2, o3, o4⟩ := offsetRel_spec r q.base q.sym (hp.kind r hrel) (by omega) hlt1
  have hgetD : ((allSyms (places ps)).getD (q.sym + r.info.toNat / 256) default) =
      movedSym q.base (p.inp.syms.getD (r.info.toNat / 256) default) := by
    rw [eS, hs, List.getD_eq_getElem?_getD, List.getElem?_append_right (by omega)]
    rw [Nat.add_sub_cancel_left, List.getElem?_append_left (by simpa using hsymr), List.getElem?_map,
      List.getElem?_eq_getElem hsymr, List.getD_eq_getElem?_getD, List.getElem?_eq_getElem hsymr]
    rfl
  have hval : valR (allSyms (places ps)) (offsetRel r q.base q.sym) =
      valueOf (p.inp.syms.getD (r.info.toNat / 256) default) (allSyms (places ps)) := by
    rw [valR, o2, Nat.add_comm, hgetD, valueOf_congr (sameThing_moved _ _)]
  refine ⟨?_, by rw [o3]; omega, hval⟩
  refine ⟨?_, ?_, ?_⟩
  · obtain ⟨d, hd, hd'⟩ := lookup_of hI hr _ hlt2
    refine ⟨d, ?_, ?_, ?_⟩
    · rw [o2, Nat.add_comm]
      exact hd'
    · have : d ∈ defsOf (allSyms (places ps))[q.sym + r.info.toNat / 256] (allSyms (places ps)) := by
        rw [hd]; simp
      rw [defsOf, List.mem_filter] at this
      have := this.2
      simp only [decide_eq_true_eq] at this
      exact this.1
    · rw [valR, o2, Nat.add_comm, List.getD_eq_getElem?_getD, List.getElem?_eq_getElem hlt2,
        Option.getD_some, valueOf, hd]
      rfl
  · rw [o1]
    exact o4
  · have hnl : n + 1 < p.insns.length := by
      rcases Nat.lt_or_ge (n + 1) p.insns.length with h | h
      · exact h
      · exfalso
        have hl := hp.last
        rw [List.getLast?_eq_getElem?, show p.insns.length - 1 = n by omega,
          List.getElem?_eq_getElem hn] at hl
        simp only [Option.map_some, Option.some.injEq] at hl
        rw [hl] at h16
        exact absurd h16 (by decide)
    have hn' : (allInsns a).length + n < (allInsns (places ps)).length := by
      rw [eI, List.length_append, List.length_append, List.length_map]
      omega
    have hget : (allInsns (places ps))[(allInsns a).length + n].op = p.insns[n].op := by
      have : (allInsns (places ps))[(allInsns a).length + n]? = some (movedI p.insns[n] q.base q.ro) := by
        rw [eI, List.getElem?_append_right (by omega), Nat.add_sub_cancel_left,
          List.getElem?_append_left (by simpa using hn), List.getElem?_map,
          List.getElem?_eq_getElem hn]
        rfl
      rw [List.getElem?_eq_getElem hn'] at this
      rw [Option.some.inj this, movedI_op]
    refine ⟨(allInsns a).length + n, ?_, ?_, ?_, ?_⟩
    · rw [eI, List.length_append, List.length_append, List.length_map]
      omega
    · rw [o3, eI, startOf_append _ _ _ _ (by simp; omega), startOf_moved]
      omega
    · rw [hget]
      exact h16
    · rw [hget, o1]
      intro h1
      refine hcall ?_
      rw [← rel_type, h1]
      rfl

theorem mem_outSyms {t : SymTab} {os : List Sym} (hI : Inv t os) (hr : DefinedOnce os) (d : Sym) :
    d ∈ t.order.map t.get ↔ d ∈ os ∧ IsDef d := by
  have hv : (∀ id ∈ t.order, IsDef (t.get id)) ∧ t.multi = 0 := by
    simpa only [verifySymbols, Bool.and_eq_true, List.all_eq_true, beq_iff_eq, Bool.not_eq_true',
      undef_false] using (verify_iff hI).2 hr
  have hmem : ∀ id ∈ t.order, t.get id ∈ defsOf (t.get id) os := by
    intro id hid
    exact List.mem_of_mem_head? (hI.defd id hid (hv.1 id hid))
  constructor
  · intro h
    obtain ⟨id, hid, rfl⟩ := List.mem_map.1 h
    have := hmem id hid
    rw [defsOf, List.mem_filter] at this
    exact ⟨this.1, hv.1 id hid⟩
  · rintro ⟨hd, hdef⟩
    obtain ⟨i, hi, rfl⟩ := List.getElem_of_mem hd
    obtain ⟨id, hid, -, hk⟩ := hI.slots i hi
    refine List.mem_map.2 ⟨id, hid, ?_⟩
    have h1 := hmem id hid
    rw [defsOf_congr hk] at h1
    have h2 : os[i] ∈ defsOf os[i] os := by
      rw [defsOf, List.mem_filter]
      exact ⟨hd, by simpa using ⟨hdef, SameThing.refl _⟩⟩
    have h3 := hr _ hd
    generalize defsOf os[i] os = D at h1 h2 h3
    match D, h3 with
    | [x], _ =>
      rw [List.mem_singleton] at h1 h2
      rw [h1, h2]

/-- The condition for success. -/
def Linkable (ps : List Part) : Prop :=
  OneProgram ps ∧ DefinedOnce (allSyms (places ps)) ∧ ∀ r ∈ allRels (places ps), r.2 ≤ 0xffff

theorem link_spec (ps : List Part) (hok : ∀ p ∈ ps, p.OK) (h8 : ps.length ≤ 8)
    (hpc : codeSize ps < 2 ^ 32) (hsy : symCount ps ≤ 2 ^ 24) :
    (Linkable ps → ∃ o, link (ps.map (·.inp)) = .ok (some o) ∧ Linked ps o) ∧
    (¬ Linkable ps → link (ps.map (·.inp)) = .ok none) := by
  have hfst := placesFrom_fst ⟨0, 0, 0, 0⟩ ps
  rw [link, if_neg (by simpa using h8)]
  rcases loadFiles_spec ps _ _ _ loaded_init hok with ⟨st, hload, hL⟩ | ⟨hload, hbad⟩
  · rw [hload]
    simp only [Res.ok_bind]
    rw [List.nil_append] at hL
    change Loaded st (places ps) _ at hL
    have hheads := hL.heads
    change Heads ((placesFrom ⟨0, 0, 0, 0⟩ ps).map (·.1)) at hheads
    rw [hfst] at hheads
    have hone : OneProgram ps ↔ st.progFound = true := by
      rw [hL.found]
      constructor
      · rintro ⟨-, h⟩
        have hpos : 0 < (ps.filter fun p => p.inp.ftype = 3#8).length := by omega
        obtain ⟨p, hp⟩ := List.exists_mem_of_length_pos hpos
        rw [List.mem_filter] at hp
        rw [← hfst] at hp
        obtain ⟨x, hx, rfl⟩ := List.mem_map.1 hp.1
        exact ⟨x, hx, by simpa using hp.2⟩
      · rintro ⟨x, hx, h3⟩
        refine ⟨hheads.1, ?_⟩
        have hm : x.1 ∈ ps.filter fun p => p.inp.ftype = 3#8 := by
          rw [List.mem_filter]
          refine ⟨?_, by simpa using h3⟩
          rw [← hfst]
          exact List.mem_map_of_mem (f := (·.1)) hx
        have := List.length_pos_of_mem hm
        have := hheads.2
        omega
    have hver := verify_iff hL.syms
    cases hf : st.progFound
    · rw [if_pos rfl]
      refine ⟨fun h => ?_, fun _ => rfl⟩
      have := hone.1 h.1
      rw [hf] at this
      cases this
    rw [if_neg (by simp)]
    cases hv : verifySymbols st.syms
    · rw [if_pos rfl]
      refine ⟨fun h => ?_, fun _ => rfl⟩
      have := hver.2 h.2.1
      rw [hv] at this
      cases this
    rw [if_neg (by simp)]
    have hr := hver.1 hv
    have hlen : (encode (allInsns (places ps))).length < 2 ^ 32 := by
      rw [show places ps = placesFrom ⟨0, 0, 0, 0⟩ ps from rfl, allInsns_length]; exact hpc
    have key := applyAll_fits (t := st.syms) (valR (allSyms (places ps))) st.rels (allInsns (places ps))
      (by
        intro r hr'
        rw [hL.rels] at hr'
        simp only [List.mem_flatMap, List.mem_map] at hr'
        obtain ⟨⟨p, q⟩, hx, r0, hr0, rfl⟩ := hr'
        exact (rel_fits hok hpc hsy hL.syms hr hx hr0).1) hlen
    have hrels : (st.rels.map fun r => (r.offset.toNat, valR (allSyms (places ps)) r)) =
        allRels (places ps) := by
      rw [hL.rels, allRels, List.map_flatMap, List.flatMap_def, List.flatMap_def]
      congr 1
      apply List.map_congr_left
      rintro ⟨p, q⟩ hx
      simp only [List.map_map]
      apply List.map_congr_left
      intro r0 hr0
      obtain ⟨-, h1, h2⟩ := rel_fits hok hpc hsy hL.syms hr hx hr0
      simp only [Function.comp_apply, h1, h2]
    have hcond : (∀ r ∈ st.rels, valR (allSyms (places ps)) r ≤ 0xffff) ↔
        ∀ r ∈ allRels (places ps), r.2 ≤ 0xffff := by
      rw [← hrels]
      simp [List.mem_map]
    rw [← hL.prog, hrels] at key
    rw [key]
    simp only [Res.ok_bind]
    by_cases hc : ∀ r ∈ allRels (places ps), r.2 ≤ 0xffff
    · rw [if_pos (hcond.2 hc)]
      simp only
      refine ⟨fun _ => ⟨_, rfl, ?_⟩, fun h => absurd ⟨hone.2 hf, hr, hc⟩ h⟩
      constructor
      · rfl
      · show st.rodata = _
        rw [hL.rodata]
        conv => rhs; rw [← hfst]
        rw [List.flatMap_map]
        rfl
      · show st.files = _
        rw [hL.files]
        conv => rhs; rw [← hfst]
        rw [List.flatMap_map]
        rfl
      · show st.lines = _
        rw [hL.lines]
        congr 1
        funext x
        exact List.map_congr_left fun l _ => mergeLine_eq _ _ l
      · exact hL.start
      · exact ⟨List.pairwise_map.2 hL.syms.sorted, mem_outSyms hL.syms hr⟩
    · rw [if_neg (fun h => hc (hcond.1 h))]
      exact ⟨fun h => absurd h.2.2 hc, fun _ => rfl⟩
  · rw [hload]
    refine ⟨fun h => absurd ?_ hbad, fun _ => rfl⟩
    have := h.1
    exact ⟨by simpa using this.1, by
      have := this.2
      show (ps.filter fun p => p.inp.ftype = 3#8).length ≤ 1
      omega⟩

end Pas.Link
