import Verif.Lemmas.LinkMain
/-! Properties C35 (symbol resolution), C36 (relocations), C37 (constants, files and lines). -/
namespace Pas.Link
open Pas.Spec Pas.Poff

/-! ### C35 -/

/-- **C35**: whatever the symbols of the units and wherever their code is placed, merging them
always works; verification accepts exactly when everything mentioned is defined exactly once, and
then every symbol number of the linked program (the symbols of all units, one unit after the other)
resolves to the only definition of what that symbol mentions, with its address moved. -/
theorem C35_resolution (us : List (List Sym × Nat)) :
    ∃ t, mergeAll us 0 SymTab.empty = .ok (t, (symbols us).length) ∧
      (verifySymbols t = true ↔ DefinedOnce (symbols us)) ∧
      (DefinedOnce (symbols us) → ∀ i (h : i < (symbols us).length),
        ∃ d, defsOf (symbols us)[i] (symbols us) = [d] ∧ symbolByIndex t i = .ok (some d)) := by
  obtain ⟨t, h, hI⟩ := mergeAll_inv us SymTab.empty [] inv_empty
  rw [List.nil_append] at hI
  exact ⟨t, by simpa using h, verify_iff hI, fun hr i hi => lookup_of hI hr i hi⟩

/-- A procedure used before it is defined, in two units. -/
def sampleUnits : List (List Sym × Nat) :=
  [([⟨[102, 111], 3, 0, 1, 0, 0⟩, ⟨[98], 3, 0, 0, 4, 0⟩], 0),
   ([⟨[98], 3, 0, 1, 0, 0⟩, ⟨[102, 111], 3, 0, 0, 10, 0⟩, ⟨[102], 2, 1, 0, 6, 2⟩], 100)]

example : DefinedOnce (symbols sampleUnits) := by decide +kernel
example : ((symbols sampleUnits).map (valueOf · (symbols sampleUnits))) = [110, 4, 4, 110, 6] := by
  decide +kernel
example : ¬ DefinedOnce (symbols (sampleUnits.take 1)) := by decide +kernel
example : ¬ DefinedOnce (symbols (sampleUnits ++ sampleUnits.drop 1)) := by decide +kernel

theorem resolved_perm {a b : List Sym} (h : a.Perm b) : DefinedOnce a ↔ DefinedOnce b := by
  have key : ∀ {a b : List Sym}, a.Perm b → DefinedOnce a → DefinedOnce b := by
    intro a b h hr s hs
    have := hr s (h.mem_iff.2 hs)
    rw [← this]
    exact ((h.filter _).length_eq).symm
  exact ⟨key h, key h.symm⟩

/-- **C35**, order: if the same symbols come in another order, in other units, verification has
the same outcome, and symbols mentioning the same thing resolve to the same definition. -/
theorem C35_order (us vs : List (List Sym × Nat)) (hp : (symbols us).Perm (symbols vs)) (t u : SymTab)
    (n m : Nat) (ht : mergeAll us 0 SymTab.empty = .ok (t, n))
    (hu : mergeAll vs 0 SymTab.empty = .ok (u, m)) :
    n = m ∧ verifySymbols t = verifySymbols u ∧
      (verifySymbols t = true → ∀ i j (hi : i < (symbols us).length) (hj : j < (symbols vs).length),
        SameThing (symbols us)[i] (symbols vs)[j] → symbolByIndex t i = symbolByIndex u j) := by
  obtain ⟨t', h1, h2, h3⟩ := C35_resolution us
  obtain ⟨u', k1, k2, k3⟩ := C35_resolution vs
  rw [ht] at h1
  rw [hu] at k1
  simp only [Res.ok.injEq, Prod.mk.injEq] at h1 k1
  obtain ⟨rfl, rfl⟩ := h1
  obtain ⟨rfl, rfl⟩ := k1
  have hrp := resolved_perm hp
  refine ⟨hp.length_eq, ?_, ?_⟩
  · rw [Bool.eq_iff_iff, h2, k2, hrp]
  · intro hv i j hi hj hs
    obtain ⟨d, d1, d2⟩ := h3 (h2.1 hv) i hi
    obtain ⟨e, e1, e2⟩ := k3 (hrp.1 (h2.1 hv)) j hj
    have hpp : (defsOf (symbols us)[i] (symbols us)).Perm (defsOf (symbols vs)[j] (symbols vs)) := by
      rw [← defsOf_congr hs]
      exact hp.filter _
    rw [d1, e1, List.perm_singleton] at hpp
    rw [d2, e2, show d = e by simpa using hpp]

example : (symbols sampleUnits).Perm (symbols [(sampleUnits[1].1, 100), (sampleUnits[0].1, 0)]) := by
  decide +kernel

/-! ### C36 -/

/-- **C36**: what linking does to programs: it succeeds exactly when there is one program and
otherwise units, everything mentioned is defined once, and every relocated symbol has a 16-bit
value; the code is the code of the parts with their addresses moved and with the operand of each
relocated instruction set to the value of the definition of the relocation's symbol.
Partial: inputs as the compiler makes them (`Part.OK`), at most eight, sizes in range. -/
theorem C36_link_partial (ps : List Part) (hok : ∀ p ∈ ps, p.OK) (h8 : ps.length ≤ 8)
    (hpc : (ps.map fun p => (encode p.insns).length).sum < 2 ^ 32)
    (hsy : (ps.map fun p => p.inp.syms.length).sum ≤ 2 ^ 24) :
    (OneProgram ps ∧ DefinedOnce (allSyms (places ps)) ∧ (∀ r ∈ allRels (places ps), r.2 ≤ 0xffff) →
      ∃ o, link (ps.map (·.inp)) = .ok (some o) ∧ Linked ps o) ∧
    (¬ (OneProgram ps ∧ DefinedOnce (allSyms (places ps)) ∧ ∀ r ∈ allRels (places ps), r.2 ≤ 0xffff) →
      link (ps.map (·.inp)) = .ok none) :=
  link_spec ps hok h8 hpc hsy

/-- A program calling a procedure of a unit; both have a constant. -/
def sampleParts : List Part :=
  let prog := [⟨Op.lac.toByte, 0, 0⟩, ⟨Op.pcal.toByte, 1, 0xffff⟩, ⟨Op.end_.toByte, 0, 0⟩]
  let unit := [⟨Op.lac.toByte, 0, 0⟩, ⟨Op.ret.toByte, 0, 0⟩, ⟨Op.end_.toByte, 0, 0⟩]
  [⟨⟨3, [112], 0, [1, 2], encode prog, [[97]], [(1, 0, 0)], [⟨[102], 3, 0, 1, 0, 0⟩], [⟨1, 3⟩]⟩, prog, []⟩,
   ⟨⟨4, [117], 0, [7], encode unit ++ [0], [[98], [99]], [(5, 1, 3)], [⟨[102], 3, 0, 0, 0, 0⟩], []⟩, unit, [0]⟩]

theorem wf_of (i : OpType) (h : ((Op.ofByte i.op).isSome && (hasArg8 i.op || i.arg1 == 0#8) &&
    (hasArg16 i.op || i.arg2 == 0#16)) = true) : WellFormed i := by
  simp only [Bool.and_eq_true, Bool.or_eq_true, beq_iff_eq] at h
  refine ⟨?_, fun h8 => ?_, fun h16 => ?_⟩
  · obtain ⟨o, ho⟩ := Option.isSome_iff_exists.1 h.1.1
    exact ⟨o, Op.toByte_ofByte ho⟩
  · rcases h.1.2 with h | h
    · rw [h8] at h; cases h
    · exact h
  · rcases h.2 with h | h
    · rw [h16] at h; cases h
    · exact h

theorem signed_of {i : OpType} (h : (i.op == Op.jult.toByte || i.op == Op.jugte.toByte ||
    i.op == Op.jugt.toByte || i.op == Op.julte.toByte) = false) (o : Op) (ho : o.toByte = i.op) :
    ¬ UnsignedJump o := by
  rintro (rfl | rfl | rfl | rfl) <;> rw [← ho] at h <;> revert h <;> decide

theorem sampleParts_ok : ∀ p ∈ sampleParts, p.OK := by
  intro p hp
  simp only [sampleParts, List.mem_cons, List.not_mem_nil, or_false] at hp
  rcases hp with rfl | rfl
  · refine ⟨by simp, ?_, ?_, ?_, rfl, by simp, ?_, ?_, ?_⟩
    · intro i hi
      simp only [List.mem_cons, List.not_mem_nil, or_false] at hi
      rcases hi with rfl | rfl | rfl <;> exact wf_of _ (by decide +kernel)
    · intro i hi
      simp only [List.mem_cons, List.not_mem_nil, or_false] at hi
      rcases hi with rfl | rfl | rfl <;> exact signed_of (by decide +kernel)
    · intro i hi
      simp only [List.dropLast, List.mem_cons, List.not_mem_nil, or_false] at hi
      rcases hi with rfl | rfl <;> decide
    · simp
    · simp
    · intro r hr
      simp only [List.mem_cons, List.not_mem_nil, or_false] at hr
      subst hr
      exact ⟨1, by simp, by decide +kernel, by decide +kernel, fun _ => rfl⟩
  · refine ⟨rfl, ?_, ?_, ?_, rfl, by simp, by simp, by simp, by simp⟩
    · intro i hi
      simp only [List.mem_cons, List.not_mem_nil, or_false] at hi
      rcases hi with rfl | rfl | rfl <;> exact wf_of _ (by decide +kernel)
    · intro i hi
      simp only [List.mem_cons, List.not_mem_nil, or_false] at hi
      rcases hi with rfl | rfl | rfl <;> exact signed_of (by decide +kernel)
    · intro i hi
      simp only [List.dropLast, List.mem_cons, List.not_mem_nil, or_false] at hi
      rcases hi with rfl | rfl <;> decide

instance (ps : List Part) : Decidable (OneProgram ps) := inferInstanceAs (Decidable (_ ∧ _))

example : ∃ o, link (sampleParts.map (·.inp)) = .ok (some o) ∧ Linked sampleParts o ∧
    o.prog = encode [⟨Op.lac.toByte, 0, 0⟩, ⟨Op.pcal.toByte, 1, 8⟩, ⟨Op.end_.toByte, 0, 0⟩,
      ⟨Op.lac.toByte, 0, 2⟩, ⟨Op.ret.toByte, 0, 0⟩, ⟨Op.end_.toByte, 0, 0⟩] := by
  have h := (C36_link_partial sampleParts sampleParts_ok (by decide) (by decide +kernel)
    (by decide +kernel)).1 ⟨by decide +kernel, by decide +kernel, by decide +kernel⟩
  obtain ⟨o, h1, h2⟩ := h
  refine ⟨o, h1, h2, ?_⟩
  rw [h2.code]
  decide +kernel

theorem setOperand_get (l : List OpType) (r : Nat × Nat) (n : Nat) (h : n < l.length) :
    (setOperand l r)[n]? = some ⟨l[n].op, l[n].arg1,
      if startOf l n = r.1 then BitVec.ofNat 16 r.2 else l[n].arg2⟩ := by
  rw [setOperand, List.getElem?_mapIdx, List.getElem?_eq_getElem h, Option.map_some]
  split <;> rfl

/-- **C36**, operands: setting operands keeps the number of instructions, their operations and
8-bit operands; the 16-bit operand of an instruction changes only if a relocation is at its
address, and then it is the value of the last such relocation. -/
theorem C36_operands (l : List OpType) (rs : List (Nat × Nat)) :
    (setOperands l rs).length = l.length ∧
    ∀ n (h : n < l.length), (setOperands l rs)[n]? = some ⟨l[n].op, l[n].arg1,
      (((rs.filter fun r => r.1 = startOf l n).getLast?).map fun r => BitVec.ofNat 16 r.2).getD l[n].arg2⟩ := by
  induction rs generalizing l with
  | nil =>
    refine ⟨rfl, fun n h => ?_⟩
    simp [setOperands, h]
  | cons r rs ih =>
    obtain ⟨i1, i2⟩ := ih (setOperand l r)
    rw [setOperand_length] at i1
    refine ⟨i1, fun n h => ?_⟩
    have h' : n < (setOperand l r).length := by rw [setOperand_length]; exact h
    have := i2 n h'
    rw [setOperand_startOf] at this
    have hg := setOperand_get l r n h
    rw [List.getElem?_eq_getElem h', Option.some.injEq] at hg
    rw [hg] at this
    rw [show setOperands l (r :: rs) = setOperands (setOperand l r) rs from rfl, this]
    congr 2
    rw [List.filter_cons]
    by_cases hr : r.1 = startOf l n
    · rw [if_pos hr.symm, if_pos (by simpa using hr), List.getLast?_cons]
      cases (rs.filter fun r => r.1 = startOf l n).getLast? <;> simp
    · rw [if_neg (Ne.symm hr), if_neg (by simpa using hr)]

example : setOperands [⟨Op.lac.toByte, 0, 0⟩, ⟨Op.pcal.toByte, 1, 9⟩, ⟨Op.push.toByte, 0, 5⟩] [(3, 8), (3, 300)] =
    [⟨Op.lac.toByte, 0, 0⟩, ⟨Op.pcal.toByte, 1, 300⟩, ⟨Op.push.toByte, 0, 5⟩] := by decide +kernel

theorem fixupCall_frame {p d : List Byte} {v : Nat} (h : fixupCall p v = .ok (some d)) :
    d.length = p.length ∧ d[0]? = p[0]? ∧ ∀ k, 4 ≤ k → d[k]? = p[k]? := by
  match p, h with
  | b0 :: b1 :: b2 :: b3 :: r, h =>
    simp only [fixupCall] at h
    split at h
    · cases h
    · split at h
      · cases h
      · simp only [Res.ok.injEq, Option.some.injEq] at h
        subst h
        refine ⟨rfl, rfl, fun k hk => ?_⟩
        obtain ⟨j, rfl⟩ : ∃ j, k = j + 4 := ⟨k - 4, by omega⟩
        rfl
  | [b0], h => simp only [fixupCall] at h; split at h <;> cases h
  | [b0, b1], h => simp only [fixupCall] at h; split at h <;> cases h
  | [b0, b1, b2], h => simp only [fixupCall] at h; split at h <;> cases h

theorem fixupFrame_frame {p d : List Byte} {v : Nat} (h : fixupFrame p v = .ok (some d)) :
    d.length = p.length ∧ d[0]? = p[0]? ∧ ∀ k, 4 ≤ k → d[k]? = p[k]? := by
  match p, h with
  | b0 :: r, h =>
    rw [fixupFrame] at h
    generalize hk : (if hasArg8 b0 = false then 1 else 2) = k at h
    have hk1 : 1 ≤ k ∧ k ≤ 2 := by subst hk; split <;> omega
    by_cases h1 : hasArg16 b0 = false
    · rw [if_pos h1] at h
      cases h
    rw [if_neg h1] at h
    by_cases h2 : v > 0xffff
    · rw [if_pos h2] at h
      cases h
    rw [if_neg h2] at h
    by_cases h3 : k + 1 < (b0 :: r).length
    · simp only [h3, if_true, Res.ok.injEq, Option.some.injEq] at h
      subst h
      refine ⟨by simp, ?_, fun j hj => ?_⟩
      · rw [List.getElem?_set_ne (by omega), List.getElem?_set_ne (by omega)]
      · rw [List.getElem?_set_ne (by omega), List.getElem?_set_ne (by omega)]
    · simp only [h3, if_false] at h
      cases h

theorem applyOne_frame {t : SymTab} {p d : List Byte} {r : Rel} (h : applyOne t p r = .ok (some d)) :
    d.length = p.length ∧ ∀ k, (k ≤ r.offset.toNat ∨ r.offset.toNat + 4 ≤ k ∨
      (r.type ≠ 1 ∧ r.type ≠ 2)) → d[k]? = p[k]? := by
  rw [applyOne] at h
  cases hs : symbolByIndex t r.sym.toNat with
  | ub => rw [hs] at h; cases h
  | hang => rw [hs] at h; cases h
  | ok s =>
    rw [hs] at h
    simp only [Res.ok_bind] at h
    cases s with
    | none => cases h
    | some s =>
      simp only at h
      split at h
      · cases h
      · next hc =>
        have comb (e : List Byte) (hp : ¬ p.drop r.offset.toNat = []) (he : e.length = (p.drop r.offset.toNat).length ∧
            e[0]? = (p.drop r.offset.toNat)[0]? ∧ ∀ k, 4 ≤ k → e[k]? = (p.drop r.offset.toNat)[k]?)
            (hd : p.take r.offset.toNat ++ e = d) (ht : r.type = 1 ∨ r.type = 2) :
            d.length = p.length ∧ ∀ k, (k ≤ r.offset.toNat ∨ r.offset.toNat + 4 ≤ k ∨
              (r.type ≠ 1 ∧ r.type ≠ 2)) → d[k]? = p[k]? := by
          obtain ⟨e1, e2, e3⟩ := he
          have hlt : r.offset.toNat < p.length := by
            rw [List.drop_eq_nil_iff] at hp
            omega
          have hl : (p.take r.offset.toNat).length = r.offset.toNat := by
            rw [List.length_take]; omega
          subst hd
          refine ⟨by rw [List.length_append, e1, hl, List.length_drop]; omega, ?_⟩
          intro k hk
          by_cases h1 : k < r.offset.toNat
          · rw [List.getElem?_append_left (by omega), List.getElem?_take, if_pos h1]
          · rw [List.getElem?_append_right (by omega), hl]
            by_cases h2 : k = r.offset.toNat
            · subst h2
              rw [Nat.sub_self, e2, List.getElem?_drop, Nat.add_zero]
            · rw [e3 _ (by
                rcases hk with hk | hk | hk
                · omega
                · omega
                · rcases ht with h | h
                  · exact absurd h hk.1
                  · exact absurd h hk.2), List.getElem?_drop]
              congr 1
              omega
        split at h
        · next ht =>
          cases hf : fixupCall (p.drop r.offset.toNat) s.value.toNat with
          | ub => rw [hf] at h; cases h
          | hang => rw [hf] at h; cases h
          | ok e =>
            rw [hf] at h
            cases e with
            | none => cases h
            | some e =>
              simp only [Res.ok_bind, Res.ok.injEq, Option.some.injEq] at h
              refine comb e ?_ (fixupCall_frame hf) h (.inl ht)
              intro hn
              rw [hn] at hf
              cases hf
        · split at h
          · next ht =>
            cases hf : fixupFrame (p.drop r.offset.toNat) s.value.toNat with
            | ub => rw [hf] at h; cases h
            | hang => rw [hf] at h; cases h
            | ok e =>
              rw [hf] at h
              cases e with
              | none => cases h
              | some e =>
                simp only [Res.ok_bind, Res.ok.injEq, Option.some.injEq] at h
                refine comb e ?_ (fixupFrame_frame hf) h (.inr ht)
                intro hn
                rw [hn] at hf
                cases hf
          · simp only [Res.ok.injEq, Option.some.injEq] at h
            subst h
            exact ⟨rfl, fun _ _ => rfl⟩

/-- **C36**, other bytes: for any program, any symbols and any relocations, applying them keeps
the size of the program, and a byte changes only if it is one of the three bytes after the opcode
at a relocated address. -/
theorem C36_frame (t : SymTab) (p d : List Byte) (rs : List Rel)
    (h : applyAll t p rs = .ok (some d)) :
    d.length = p.length ∧ ∀ k, (∀ r ∈ rs, r.info.toNat % 256 = 1 ∨ r.info.toNat % 256 = 2 →
      ¬ (r.offset.toNat < k ∧ k < r.offset.toNat + 4)) → d[k]? = p[k]? := by
  induction rs generalizing p with
  | nil =>
    simp only [applyAll, Res.ok.injEq, Option.some.injEq] at h
    subst h
    exact ⟨rfl, fun _ _ => rfl⟩
  | cons r rs ih =>
    rw [applyAll] at h
    cases hf : applyOne t p r with
    | ub => rw [hf] at h; cases h
    | hang => rw [hf] at h; cases h
    | ok e =>
      rw [hf] at h
      cases e with
      | none => cases h
      | some e =>
        obtain ⟨f1, f2⟩ := applyOne_frame hf
        obtain ⟨i1, i2⟩ := ih e h
        refine ⟨by rw [i1, f1], fun k hk => ?_⟩
        rw [i2 k (fun x hx => hk x (by simp [hx])), f2 k]
        have := hk r (by simp)
        have ht := rel_type r
        by_cases h12 : r.info.toNat % 256 = 1 ∨ r.info.toNat % 256 = 2
        · have := this h12
          omega
        · right; right
          constructor <;> intro h <;> rw [h] at ht
          · exact h12 (.inl ht.symm)
          · exact h12 (.inr ht.symm)

example : applyAll ⟨[⟨[102], 3, 0, 0, 0x1234, 0⟩], [0], fun i => if i = 0 then some 0 else none, 1024, 0⟩
    [Op.pcal.toByte, 1, 0, 0, 9, 9, 9, 9] [⟨1, 0⟩] =
    .ok (some [Op.pcal.toByte, 1, 0x12, 0x34, 9, 9, 9, 9]) := by decide +kernel

/-! ### C37 -/

/-- **C37**, lines (partial: not more than 65536 file names, sizes in range as in C36): the line
numbers of the linked program are those of the parts in order, each with the source file it had
in its part and its address moved by the place of the code. -/
theorem C37_lines_partial (ps : List Part) (o : Output) (h : Linked ps o)
    (hf : (ps.flatMap (·.inp.files)).length ≤ 65536)
    (hin : ∀ p ∈ ps, ∀ l ∈ p.inp.lines, l.2.1.toNat < p.inp.files.length) :
    (o.lines.map fun e => (e.1, o.files[e.2.1.toNat]?, e.2.2)) =
      (places ps).flatMap fun x => x.1.inp.lines.map fun l =>
        (l.1, x.1.inp.files[l.2.1.toNat]?, BitVec.ofNat 32 (l.2.2.toNat + x.2.base)) := by
  rw [h.lines, List.map_flatMap, List.flatMap_def, List.flatMap_def]
  congr 1
  apply List.map_congr_left
  rintro ⟨p, q⟩ hx
  obtain ⟨a, b, hab⟩ := List.append_of_mem hx
  have hpl := placesFrom_split hab
  simp only [Nat.zero_add] at hpl
  obtain ⟨-, -, -, hfn⟩ := hpl
  have hp : p ∈ ps := by
    rw [← placesFrom_fst ⟨0, 0, 0, 0⟩ ps]
    exact List.mem_map_of_mem (f := (·.1)) hx
  have hfiles : ps.flatMap (·.inp.files) =
      a.flatMap (·.1.inp.files) ++ (p.inp.files ++ b.flatMap (·.1.inp.files)) := by
    conv => lhs; rw [← placesFrom_fst ⟨0, 0, 0, 0⟩ ps, List.flatMap_map]
    rw [show placesFrom _ ps = _ from hab, List.flatMap_append, List.flatMap_cons]
  simp only [List.map_map]
  apply List.map_congr_left
  intro l hl
  simp only [Function.comp_apply, Prod.mk.injEq, true_and, and_true]
  have := hin p hp l hl
  rw [hfiles, List.length_append, List.length_append] at hf
  rw [h.files, hfiles, BitVec.toNat_ofNat, Nat.mod_eq_of_lt (by omega),
    List.getElem?_append_right (by omega), List.getElem?_append_left (by omega)]
  congr 1
  omega

/-- **C37**, constants (partial: not more than 65536 bytes of constants, sizes in range as in
C36): an instruction `LAC a` of a part, not itself relocated, is in the linked program, at its
moved address, `LAC a'` where the constants from `a'` on are those the part has from `a` on. -/
theorem C37_constants_partial (ps : List Part) (o : Output) (h : Linked ps o)
    (hro : (ps.flatMap (·.inp.rodata)).length ≤ 65536) (p : Part) (q : Place)
    (hx : (p, q) ∈ places ps) (n : Nat) (hn : n < p.insns.length) (a : Word)
    (hi : p.insns[n] = ⟨Op.lac.toByte, 0, a⟩) (ha : a.toNat < p.inp.rodata.length)
    (hr : ∀ r ∈ allRels (places ps), r.1 ≠ q.base + startOf p.insns n) :
    ∃ a' : Word, (∀ k < 3, o.prog[q.base + startOf p.insns n + k]? =
        (opBytes ⟨Op.lac.toByte, 0, a'⟩)[k]?) ∧
      ∀ k, a.toNat + k < p.inp.rodata.length →
        o.rodata[a'.toNat + k]? = p.inp.rodata[a.toNat + k]? := by
  obtain ⟨xa, xb, hab⟩ := List.append_of_mem hx
  have hpl := placesFrom_split hab
  simp only [Nat.zero_add] at hpl
  obtain ⟨hb, -, hqro, -⟩ := hpl
  have hdata : ps.flatMap (·.inp.rodata) =
      xa.flatMap (·.1.inp.rodata) ++ (p.inp.rodata ++ xb.flatMap (·.1.inp.rodata)) := by
    conv => lhs; rw [← placesFrom_fst ⟨0, 0, 0, 0⟩ ps, List.flatMap_map]
    rw [show placesFrom _ ps = _ from hab, List.flatMap_append, List.flatMap_cons]
  have eI : allInsns (places ps) =
      allInsns xa ++ ((p.insns.map fun i => movedI i q.base q.ro) ++ allInsns xb) := by
    rw [show places ps = xa ++ (p, q) :: xb from hab, allInsns_append, allInsns_cons]
  have hstart : startOf (allInsns (places ps)) ((allInsns xa).length + n) =
      q.base + startOf p.insns n := by
    rw [eI, startOf_append _ _ _ _ (by simp; omega), startOf_moved, hb]
  have hm : movedI ⟨Op.lac.toByte, 0, a⟩ q.base q.ro = ⟨Op.lac.toByte, 0, a + BitVec.ofNat 16 q.ro⟩ := by
    rw [movedI_of (o := .lac) rfl]
    rfl
  have hN : (allInsns xa).length + n < (allInsns (places ps)).length := by
    rw [eI, List.length_append, List.length_append, List.length_map]
    omega
  have hget : (allInsns (places ps))[(allInsns xa).length + n] =
      ⟨Op.lac.toByte, 0, a + BitVec.ofNat 16 q.ro⟩ := by
    have : (allInsns (places ps))[(allInsns xa).length + n]? =
        some ⟨Op.lac.toByte, 0, a + BitVec.ofNat 16 q.ro⟩ := by
      rw [eI, List.getElem?_append_right (by omega), Nat.add_sub_cancel_left,
        List.getElem?_append_left (by simpa using hn), List.getElem?_map,
        List.getElem?_eq_getElem hn, hi, Option.map_some, hm]
    rw [List.getElem?_eq_getElem hN] at this
    exact Option.some.inj this
  obtain ⟨s1, s2⟩ := C36_operands (allInsns (places ps)) (allRels (places ps))
  have hs := s2 _ hN
  rw [hget, hstart, List.filter_eq_nil_iff.2 (by
    intro r hr'
    simpa using hr r hr')] at hs
  simp only [List.getLast?_nil, Option.map_none, Option.getD_none] at hs
  have hN' : (allInsns xa).length + n < (setOperands (allInsns (places ps)) (allRels (places ps))).length := by
    rw [s1]; exact hN
  have hso : ∀ (rs : List (Nat × Nat)) (l : List OpType) (m : Nat),
      startOf (setOperands l rs) m = startOf l m := by
    intro rs
    induction rs with
    | nil => intros; rfl
    | cons r rs ih =>
      intro l m
      rw [show setOperands l (r :: rs) = setOperands (setOperand l r) rs from rfl, ih,
        setOperand_startOf]
  refine ⟨a + BitVec.ofNat 16 q.ro, fun k hk => ?_, fun k hk => ?_⟩
  · rw [List.getElem?_eq_getElem hN', Option.some.injEq] at hs
    have := encode_at hN' [] [] k (by
      rw [hs]
      have : byteSize ⟨Op.lac.toByte, 0, a + BitVec.ofNat 16 q.ro⟩ = 3 :=
        (byteSize_op (j := ⟨Op.lac.toByte, 0, 0⟩) rfl).trans (by decide)
      omega)
    rw [hs, hso, hstart] at this
    rw [h.code]
    simpa using this
  · have hlt := a.isLt
    rw [hdata, List.length_append, List.length_append] at hro
    rw [h.constants, hdata, BitVec.toNat_add, BitVec.toNat_ofNat, Nat.mod_eq_of_lt (by omega),
      Nat.mod_eq_of_lt (a := q.ro) (by omega),
      List.getElem?_append_right (by omega), List.getElem?_append_left (by omega)]
    congr 1
    omega

/-- Both theorems apply to the sample program: its second part has `LAC 0` for its byte 7. -/
example : ∃ o, link (sampleParts.map (·.inp)) = .ok (some o) ∧
    o.rodata[2]? = some 7#8 ∧ (o.lines.map fun e => (e.1, o.files[e.2.1.toNat]?, e.2.2)) =
      [(1, some [97], 0), (5, some [99], 11)] := by
  have h := (C36_link_partial sampleParts sampleParts_ok (by decide) (by decide +kernel)
    (by decide +kernel)).1 ⟨by decide +kernel, by decide +kernel, by decide +kernel⟩
  obtain ⟨o, h1, h2⟩ := h
  refine ⟨o, h1, ?_, ?_⟩
  · rw [h2.constants]
    decide +kernel
  · rw [C37_lines_partial sampleParts o h2 (by decide) (by decide +kernel)]
    decide +kernel

/-- **C37 violated** by an input without file names: the offset of the next file's names is an
uninitialised variable. -/
theorem C37_violation_files (st : State) (i : Input) (h : i.files = [])
    (hh : (checkHeader st i).isSome = true)
    (hm : ∀ st' : State, ∃ r, mergeProgram i.prog st'.prog st'.pcOffset st'.rodata.length = .ok r) :
    loadFile st i = .ub := by
  obtain ⟨st', hs⟩ := Option.isSome_iff_exists.1 hh
  obtain ⟨r, hr⟩ := hm st'
  rw [loadFile, hs]
  simp only [hr, Res.ok_bind, mergeFiles, h, if_true, Res.ub_bind]

example : ∃ i : Input, i.files = [] ∧ loadFile State.init i = .ub :=
  ⟨⟨4, [], 0, [], [], [], [], [], []⟩, rfl, C37_violation_files _ _ rfl rfl
    fun st' => ⟨(st'.prog ++ [Op.end_.toByte], st'.pcOffset + 1), by
      simp [mergeProgram, mergeLoop, openReader, getOpCode, getByte, relocate, addOpCode, opBytes,
        show hasArg8 Op.end_.toByte = false by decide, show hasArg16 Op.end_.toByte = false by decide,
        Op.ofByte_toByte]⟩⟩

/-- **C37 violated** when there are more constants than a 16-bit address can name: the second of
two inputs takes its constant at 0 from the first input's constants. -/
theorem C37_violation_large (pcOffset roOffset : Nat) (first second : List Byte) (x y : Byte)
    (hro : roOffset = (x :: first).length) (hl : roOffset = 65536) :
    (relocate ⟨Op.lac.toByte, 0, 0⟩ pcOffset roOffset).1.arg2 = 0 ∧
      ((x :: first) ++ (y :: second))[0]? = some x ∧ (y :: second)[0]? = some y ∧
      ((x :: first) ++ (y :: second))[roOffset]? = some y := by
  refine ⟨?_, rfl, rfl, ?_⟩
  · rw [hl, relocate, Op.ofByte_toByte]
    rfl
  · rw [hro, List.getElem?_append_right (Nat.le_refl _), Nat.sub_self]
    rfl

example : ∃ first : List Byte, (1#8 :: first).length = 65536 := ⟨List.replicate 65535 0, by
  rw [List.length_cons, List.length_replicate]⟩

end Pas.Link
