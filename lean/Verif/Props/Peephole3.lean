import Verif.Props.Peephole2
import Verif.Lemmas.LoadStore

/-! C33: rewriting of loads and stores (`popt_StackOrderOptimize`, `popt_LoadOptimize`,
`popt_StoreOptimize`). -/
namespace Pas
open Spec Popt

theorem top_of_sp {s t : VM} (hr : Roomy s) (h : t.sp = s.sp ∨ t.sp = s.sp + 2#16)
    (hw : t.words = s.words) : Free t 1 := by
  have h1 := hr.2.1
  have h2 := hr.2.2
  rcases h with e | e
  · refine ⟨?_, by rw [hw]; exact h2⟩
    rw [VM.top, e, hw]; omega
  · refine ⟨?_, by rw [hw]; exact h2⟩
    rw [VM.top, e, hw]
    have := VM.add2_div s.sp (by omega)
    omega

/-- C33: a load of a variable at or below the top of the stack always pushes the value of the
variable, also when another word has been pushed before. -/
theorem C33_fetch (lib : Lib) (i : OpType) (o : Op) (s : VM) (hr : Roomy s)
    (ho : i.op = o.toByte) (h : LiveVar s o i.arg1 i.arg2) : ∃ v, Fetches lib i s v := by
  have hl : isLoadOp o = true := by
    cases o <;> first | rfl | exact h.elim
  have key : ∀ v, (∀ t : VM, t = { s with mem := t.mem, sp := t.sp } →
      (∀ j, j ≤ s.sp.toNat / 2 → t.mem j = s.mem j) → loadV t o i.arg1 i.arg2 = .ok v) →
      Fetches lib i s v := by
    intro v hv t h1 h2 h3
    have hw : t.words = s.words := by rw [h1]
    rw [load_effect ho hl (top_of_sp hr h2 hw), hv t h1 h3]
    rfl
  have hlt : s.sp.toNat / 2 < s.words := by have := hr.2.1; omega
  have byteEq : ∀ (t : VM) (a : Nat), (∀ j, j ≤ s.sp.toNat / 2 → t.mem j = s.mem j) →
      a / 2 ≤ s.sp.toNat / 2 → byteAt t.mem a = byteAt s.mem a := by
    intro t a h3 ha
    unfold byteAt
    rw [h3 _ ha]
  have base : ∀ {x : Byte} {w a f : Word} (t : VM), t = { s with mem := t.mem, sp := t.sp } →
      (∀ j, j ≤ s.sp.toNat / 2 → t.mem j = s.mem j) →
      LinkIn s (· ≤ s.sp.toNat / 2) x.toNat s.fp f →
      getBaseAddress t x (signExtend16 w) = getBaseAddress s x (signExtend16 w) := by
    intro x w a f t h1 h3 hf
    exact getBase_in (by rw [h1]) (by rw [h1]) h3 hf _
  cases o <;> first | exact h.elim | skip
  case push => exact ⟨_, key _ (fun t _ _ => rfl)⟩
  case pushb => exact ⟨_, key _ (fun t _ _ => rfl)⟩
  case upushb => exact ⟨_, key _ (fun t _ _ => rfl)⟩
  case la => exact ⟨s.spb + i.arg2, key _ (fun t h1 _ => by rw [h1]; rfl)⟩
  case lac => exact ⟨i.arg2 + s.rop, key _ (fun t h1 _ => by rw [h1]; rfl)⟩
  case ld =>
    have h : (s.spb + i.arg2).toNat / 2 ≤ s.sp.toNat / 2 := h
    refine ⟨s.mem ((s.spb + i.arg2).toNat / 2), key _ (fun t h1 h3 => ?_)⟩
    have hs : t.spb = s.spb := by rw [h1]
    have hw : t.words = s.words := by rw [h1]
    rw [loadV, VM.getStack, hs, VM.rd_eq _ (by rw [hw]; omega), h3 _ h]
  case ldb =>
    have h : (s.spb + i.arg2).toNat / 2 ≤ s.sp.toNat / 2 := h
    refine ⟨signExtend8 (byteAt s.mem (s.spb + i.arg2).toNat), key _ (fun t h1 h3 => ?_)⟩
    have hs : t.spb = s.spb := by rw [h1]
    have hw : t.words = s.words := by rw [h1]
    rw [loadV, VM.rdB, hs, if_pos (by rw [hw]; omega), byteEq t _ h3 h]
    rfl
  case uldb =>
    have h : (s.spb + i.arg2).toNat / 2 ≤ s.sp.toNat / 2 := h
    refine ⟨(byteAt s.mem (s.spb + i.arg2).toNat).zeroExtend 16, key _ (fun t h1 h3 => ?_)⟩
    have hs : t.spb = s.spb := by rw [h1]
    have hw : t.words = s.words := by rw [h1]
    rw [loadV, VM.rdB, hs, if_pos (by rw [hw]; omega), byteEq t _ h3 h]
    rfl
  case lds =>
    obtain ⟨a, f, hfa, ha, hf⟩ := h
    refine ⟨s.mem (a.toNat / 2), key _ (fun t h1 h3 => ?_)⟩
    have hw : t.words = s.words := by rw [h1]
    rw [loadV, base (a := a) t h1 h3 hf]
    simp only [signExtend16]
    rw [getBase_of hfa, Res.ok_bind, VM.getStack, VM.rd_eq _ (by rw [hw]; omega), h3 _ ha]
  case ldsb =>
    obtain ⟨a, f, hfa, ha, hf⟩ := h
    refine ⟨signExtend8 (byteAt s.mem a.toNat), key _ (fun t h1 h3 => ?_)⟩
    have hw : t.words = s.words := by rw [h1]
    rw [loadV, base (a := a) t h1 h3 hf]
    simp only [signExtend16]
    rw [getBase_of hfa, Res.ok_bind, VM.rdB, if_pos (by rw [hw]; omega), byteEq t _ h3 ha]
    rfl
  case uldsb =>
    obtain ⟨a, f, hfa, ha, hf⟩ := h
    refine ⟨(byteAt s.mem a.toNat).zeroExtend 16, key _ (fun t h1 h3 => ?_)⟩
    have hw : t.words = s.words := by rw [h1]
    rw [loadV, base (a := a) t h1 h3 hf]
    simp only [signExtend16]
    rw [getBase_of hfa, Res.ok_bind, VM.rdB, if_pos (by rw [hw]; omega), byteEq t _ h3 ha]
    rfl
  case las =>
    obtain ⟨f, hf⟩ := h
    obtain ⟨h1', h2'⟩ := chase_in (s := s) (t := s) rfl (fun _ _ => rfl) hf
    have hb : ∃ a, getBaseAddress s i.arg1 (signExtend16 i.arg2) = .ok a := by
      unfold getBaseAddress; rw [h2']; exact ⟨_, rfl⟩
    obtain ⟨a, ha⟩ := hb
    refine ⟨a, key _ (fun t h1 h3 => ?_)⟩
    rw [loadV, base (a := a) t h1 h3 hf, ha]

/-- A local variable one word below the top of the stack. -/
example : LiveVar (vmWith 5#16 0) .lds 0 8#16 := by
  refine ⟨18#16, 0#16, ⟨0#16, .here _, by decide⟩, by decide, .here _⟩

/-- C33: loading the same variable twice is the same as loading it once and duplicating it. -/
theorem C33_load_twice (lib : Lib) (a b a' b' : OpType) (c c' : Option OpType)
    (ha : isSimpleLoad a = true) (h : loadRule a b c = .rewrite (a', b', c')) :
    c' = c ∧ Sound lib (fun s => ∃ v, Fetches lib a s v) [a, b] [a', b'] := by
  unfold loadRule at h
  rw [if_pos ha] at h
  split at h
  · next hb =>
    cases h
    refine ⟨rfl, ?_⟩
    have : ∃ o, a.op = o.toByte ∧ isPlain o = true := by
      unfold isSimpleLoad at ha
      cases ho : Op.ofByte a.op with
      | none => rw [ho] at ha; cases ha
      | some o =>
        rw [ho] at ha
        refine ⟨o, op_of_some ho, ?_⟩
        cases o <;> first | rfl | cases ha
    obtain ⟨o, ho, hp⟩ := this
    intro s hr ⟨v, hf⟩ e s' hx
    have h2 := hr.free.mono (m := 2) (by omega)
    have h3 : Free (psh s v) 1 := psh_free h2
    rw [hb, fetchI_self ho hp hf, fetchI_psh ho hp hf] at hx
    rw [fetchI_self ho hp hf, dupI rfl lib _ h3, psh_mem_top (h2.mono (by omega))]
    exact ⟨s', hx, sameLive_refl _⟩
  · cases h

/-- C33: a load with a constant index is a load of the indexed variable.  Excluded: an index that
crosses from the parameters to the local variables of a frame
(`C33_violation_indexed`). -/
theorem C33_indexed_partial (lib : Lib) (a b a' b' : OpType) (c c' : Option OpType) (o o' : Op)
    (ha : isPush a = true) (hb : Op.ofByte b.op = some o) (hu : unindexed o = some o')
    (h : loadRule a b c = .rewrite (a', b', c')) :
    c' = c ∧ Sound lib (fun s => (∃ v, Fetches lib b' s v) ∧
      (o' = .lds ∨ o' = .ldsb ∨ o' = .uldsb ∨ o' = .las → SameSideIx b.arg2 (expandPush a).arg2))
      [a, b] [a', b'] := by
  have hsl : isSimpleLoad a = false := by
    rcases isPush_cases ha with e | e | e <;> (unfold isSimpleLoad; rw [e]; rfl)
  have hb1 := op_of_some hb
  unfold loadRule at h
  rw [hsl, ha, if_neg (by decide), if_pos rfl, hb] at h
  have hbind : (some o).bind unindexed = some o' := hu
  rw [hbind] at h
  cases h
  refine ⟨rfl, ?_⟩
  intro s hr ⟨⟨v, hf⟩, hs⟩ e s' hx
  have h2 := hr.free.mono (m := 2) (by omega)
  have h1 := h2.mono (m := 1) (by omega)
  have h3 : Free (psh s (expandPush a).arg2) 1 := psh_free h2
  have hplain : isPlain o = true := by cases o <;> first | rfl | cases hu
  have hk : (psh s (expandPush a).arg2).mem (psh s (expandPush a).arg2).top = (expandPush a).arg2 :=
    psh_mem_top h1
  obtain ⟨hl', hi⟩ := indexed_effect (lib := lib) (s := psh s (expandPush a).arg2) hb1 hu h3.lt
    (by rw [hk]; exact hs)
  rw [hk] at hi
  have hbo : ({ withOp b o' with arg2 := b.arg2 + (expandPush a).arg2 } : OpType).op = o'.toByte := rfl
  have hf2 := hf (psh s (expandPush a).arg2) rfl (.inr rfl) (fun j hj => psh_mem hj)
  rw [load_effect hbo hl' h3] at hf2
  have hv : loadV (psh s (expandPush a).arg2) o' b.arg1 (b.arg2 + (expandPush a).arg2) = .ok v := by
    have hf3 : (do
        let v ← loadV (psh s (expandPush a).arg2) o' b.arg1 (b.arg2 + (expandPush a).arg2)
        Res.ok (psh (psh s (expandPush a).arg2) v)) =
        .ok (psh (psh s (expandPush a).arg2) v) := hf2
    cases hl : loadV (psh s (expandPush a).arg2) o' b.arg1 (b.arg2 + (expandPush a).arg2) with
    | ub => rw [hl] at hf3; cases hf3
    | hang => rw [hl] at hf3; cases hf3
    | ok w =>
      rw [hl] at hf3
      have e1 := Res.ok.inj hf3
      have e2 := congrArg (fun t : VM => t.mem (psh (psh s (expandPush a).arg2) v).top) e1
      have e3 : (psh (psh s (expandPush a).arg2) w).mem (psh (psh s (expandPush a).arg2) w).top = w :=
        psh_mem_top h3
      have e4 : (psh (psh s (expandPush a).arg2) v).mem (psh (psh s (expandPush a).arg2) v).top = v :=
        psh_mem_top h3
      rw [psh_top h3] at e3 e4
      simp only [psh_top h3] at e2
      rw [e3, e4] at e2
      rw [e2]
  rw [pushI ha lib _ _ h1, execSeq_plain hb1 hplain, hi, hv] at hx
  simp only [Res.ok_bind] at hx
  rw [rep1_psh h1] at hx
  rw [nopI, fetchI_self hbo (isLoadOp_plain hl') hf]
  exact ⟨s', hx, sameLive_refl _⟩

/-- An array element of a global array, at index 6. -/
example : loadRule ⟨Op.pushb.toByte, 6, 0⟩ ⟨Op.ldx.toByte, 0, 10#16⟩ none =
    .rewrite (nop, ⟨Op.ld.toByte, 0, 16#16⟩, none) ∧
    LiveVar (vmWith 5#16 0) .ld 0 16#16 ∧ SameSideIx 4#16 6#16 := by
  refine ⟨rfl, ?_, ?_⟩
  · show ((0#16 : Word) + 16#16).toNat / 2 ≤ (20#16 : Word).toNat / 2
    decide
  · unfold SameSideIx; decide

/-- C33 does not hold when the index moves the offset over the frame header: LDSX takes the index
as an unsigned number and adds the ten bytes of the header for the index −2 at offset 0, but the
rewritten LDS with offset −2 does not. -/
theorem C33_violation_indexed (lib : Lib) : ∃ a b a' b' : OpType, b.op = Op.ldsx.toByte ∧
    loadRule a b none = .rewrite (a', b', none) ∧ ¬ Sound lib (fun _ => True) [a, b] [a', b'] :=
  ⟨⟨Op.push.toByte, 0, 0xfffe#16⟩, ⟨Op.ldsx.toByte, 0, 0#16⟩, _, _, rfl, rfl,
    not_sound (s := { vmWith 5#16 7#16 with fp := 20#16 }) (v := (none, 22#16, 0#16, 7#16))
      (v' := (none, 22#16, 5#16, 7#16)) (vmWith_roomy 5#16 7#16) trivial rfl rfl (by decide)⟩

end Pas
