import Verif.Lemmas.Rules
import Verif.Lemmas.Memory

/-! Helper lemmas about loads and stores in short sequences. -/
namespace Pas
open Spec Popt

/-- The value pushed by a load. -/
def loadV (s : VM) (o : Op) (x : Byte) (w : Word) : Res Word :=
  match o with
  | .ld => s.getStack (s.spb + w)
  | .ldb => do let b ← s.rdB (s.spb + w).toNat; .ok (signExtend8 b)
  | .uldb => do let b ← s.rdB (s.spb + w).toNat; .ok (b.zeroExtend 16)
  | .la => .ok (s.spb + w)
  | .lac => .ok (w + s.rop)
  | .lar => .ok (w + s.sp)
  | .push => .ok w
  | .pushb => .ok (signExtend8 x)
  | .upushb => .ok (x.zeroExtend 16)
  | .lds => do let a ← getBaseAddress s x (signExtend16 w); s.getStack a
  | .ldsb => do
      let a ← getBaseAddress s x (signExtend16 w)
      let b ← s.rdB a.toNat
      .ok (signExtend8 b)
  | .uldsb => do
      let a ← getBaseAddress s x (signExtend16 w)
      let b ← s.rdB a.toNat
      .ok (b.zeroExtend 16)
  | .las => getBaseAddress s x (signExtend16 w)
  | _ => .ub

def isLoadOp : Op → Bool
  | .push | .pushb | .upushb | .ld | .ldb | .uldb | .lds | .ldsb | .uldsb | .la | .las | .lac
  | .lar => true
  | _ => false

theorem isLoad_op {i : OpType} (h : isLoad i = true) : ∃ o, i.op = o.toByte ∧ isLoadOp o = true := by
  unfold isLoad at h
  cases ho : Op.ofByte i.op with
  | none => rw [ho] at h; cases h
  | some o =>
    rw [ho] at h
    refine ⟨o, (Op.toByte_ofByte ho).symm, ?_⟩
    cases o <;> first | rfl | cases h

theorem isLoadOp_plain {o : Op} (h : isLoadOp o = true) : isPlain o = true := by
  cases o <;> first | rfl | cases h

theorem getBase_pc (s : VM) (x : Word) (lev : Byte) (off : Int) :
    getBaseAddress { s with pc := x } lev off = getBaseAddress s lev off := by
  have : ∀ d f, chase { s with pc := x } d f = chase s d f := by
    intro d; induction d with
    | zero => intro f; rfl
    | succ n ih =>
      intro f
      simp only [chase, VM.getStack, VM.rd]
      split
      · exact ih _
      · rfl
  simp only [getBaseAddress, this]

theorem load_effect {lib : Lib} {i : OpType} {o : Op} {s : VM} (ho : i.op = o.toByte)
    (hl : isLoadOp o = true) (hf : Free s 1) :
    effect lib i s = (do let v ← loadV s o i.arg1 i.arg2; .ok (psh s v)) := by
  have pe : ∀ pc v, ({ s with pc := pc } : VM).push v = .ok { psh s v with pc := pc } :=
    fun pc v => push_effect hf
  cases o <;> first | (cases hl; done) | skip
  case ld =>
    rw [effect_24 ho rfl rfl, pexec24]
    simp only [loadV, VM.getStack, VM.rd]
    split
    · simp only [Res.ok_bind, pe]; rfl
    · rfl
  case ldb =>
    rw [effect_24 ho rfl rfl, pexec24]
    simp only [loadV, VM.rdB]
    split
    · simp only [Res.ok_bind, pe]; rfl
    · rfl
  case uldb =>
    rw [effect_24 ho rfl rfl, pexec24]
    simp only [loadV, VM.rdB]
    split
    · simp only [Res.ok_bind, pe]; rfl
    · rfl
  case la => rw [effect_24 ho rfl rfl, pexec24]; simp only [loadV, pe, Res.ok_bind]; rfl
  case lac => rw [effect_24 ho rfl rfl, pexec24]; simp only [loadV, pe, Res.ok_bind]; rfl
  case lar => rw [effect_24 ho rfl rfl, pexec24]; simp only [loadV, pe, Res.ok_bind]; rfl
  case push => rw [effect_24 ho rfl rfl, pexec24]; simp only [loadV, pe, Res.ok_bind]; rfl
  case pushb => rw [effect_16 ho rfl rfl, pexec16]; simp only [loadV, pe, Res.ok_bind]; rfl
  case upushb => rw [effect_16 ho rfl rfl, pexec16]; simp only [loadV, pe, Res.ok_bind]; rfl
  case lds =>
    rw [effect_32 ho rfl rfl, pexec32]
    simp only [loadV, getBase_pc]
    cases getBaseAddress s i.arg1 (signExtend16 i.arg2) with
    | ub => rfl
    | hang => rfl
    | ok a =>
      simp only [Res.ok_bind, VM.getStack, VM.rd]
      split
      · simp only [Res.ok_bind, pe]; rfl
      · rfl
  case ldsb =>
    rw [effect_32 ho rfl rfl, pexec32]
    simp only [loadV, getBase_pc]
    cases getBaseAddress s i.arg1 (signExtend16 i.arg2) with
    | ub => rfl
    | hang => rfl
    | ok a =>
      simp only [Res.ok_bind, VM.rdB]
      split
      · simp only [Res.ok_bind, pe]; rfl
      · rfl
  case uldsb =>
    rw [effect_32 ho rfl rfl, pexec32]
    simp only [loadV, getBase_pc]
    cases getBaseAddress s i.arg1 (signExtend16 i.arg2) with
    | ub => rfl
    | hang => rfl
    | ok a =>
      simp only [Res.ok_bind, VM.rdB]
      split
      · simp only [Res.ok_bind, pe]; rfl
      · rfl
  case las =>
    rw [effect_32 ho rfl rfl, pexec32]
    simp only [loadV, getBase_pc]
    cases getBaseAddress s i.arg1 (signExtend16 i.arg2) with
    | ub => rfl
    | hang => rfl
    | ok a =>
      simp only [Res.ok_bind, pe]
      rfl

/-- Offsets on the same side of the frame and equal modulo the word size. -/
theorem getBase_congr {s : VM} {lev : Byte} {x y : Int} (h : 0 ≤ x ↔ 0 ≤ y)
    (e : BitVec.ofInt 16 x = BitVec.ofInt 16 y) : getBaseAddress s lev x = getBaseAddress s lev y := by
  unfold getBaseAddress
  rw [e]
  congr 1
  funext f
  show Res.ok (if x ≥ 0 then f + BitVec.ofInt 16 y + fBase else f + BitVec.ofInt 16 y) =
    Res.ok (if y ≥ 0 then f + BitVec.ofInt 16 y + fBase else f + BitVec.ofInt 16 y)
  by_cases h0 : x ≥ 0
  · rw [if_pos h0, if_pos (show y ≥ 0 from h.mp h0)]
  · rw [if_neg h0, if_neg (show ¬ y ≥ 0 from fun h' => h0 (h.mpr h'))]

/-- The unindexed form of an indexed load. -/
theorem indexed_effect {lib : Lib} {i : OpType} {o o' : Op} {s : VM} (ho : i.op = o.toByte)
    (hu : unindexed o = some o') (ht : s.top < s.words)
    (hs : o' = .lds ∨ o' = .ldsb ∨ o' = .uldsb ∨ o' = .las → SameSideIx i.arg2 (s.mem s.top)) :
    isLoadOp o' = true ∧
    effect lib i s = (do let v ← loadV s o' i.arg1 (i.arg2 + s.mem s.top); .ok (rep1 s v)) := by
  have te : ∀ pc, ({ s with pc := pc } : VM).tos 0 = .ok (s.mem s.top) :=
    fun pc => VM.tos_eq _ (by exact ht) (by omega)
  have se : ∀ pc v, ({ s with pc := pc } : VM).setTos 0 v = .ok { rep1 s v with pc := pc } :=
    fun pc v => VM.setTos_eq _ _ (by exact ht) (by omega)
  have base : (o' = .lds ∨ o' = .ldsb ∨ o' = .uldsb ∨ o' = .las) →
      getBaseAddress s i.arg1 (signExtend16 i.arg2 + (s.mem s.top).toNat) =
      getBaseAddress s i.arg1 (signExtend16 (i.arg2 + s.mem s.top)) := by
    intro h
    refine getBase_congr (hs h) ?_
    simp only [signExtend16]
    rw [BitVec.ofInt_add, BitVec.ofInt_toInt, BitVec.ofInt_toInt]
    congr 1
    exact BitVec.ofNat_toNat _ _
  cases o <;> first | (cases hu; done) | skip
  all_goals cases hu
  case ldx =>
    refine ⟨rfl, ?_⟩
    rw [effect_24 ho rfl rfl, pexec24, te]
    simp only [loadV, Res.ok_bind, VM.getStack, VM.rd, ← BitVec.add_assoc]
    split
    · simp only [Res.ok_bind, se]; rfl
    · rfl
  case ldxb =>
    refine ⟨rfl, ?_⟩
    rw [effect_24 ho rfl rfl, pexec24, te]
    simp only [loadV, Res.ok_bind, VM.rdB, ← BitVec.add_assoc]
    split
    · simp only [Res.ok_bind, se]; rfl
    · rfl
  case uldxb =>
    refine ⟨rfl, ?_⟩
    rw [effect_24 ho rfl rfl, pexec24, te]
    simp only [loadV, Res.ok_bind, VM.rdB, ← BitVec.add_assoc]
    split
    · simp only [Res.ok_bind, se]; rfl
    · rfl
  case lax =>
    refine ⟨rfl, ?_⟩
    rw [effect_24 ho rfl rfl, pexec24, te]
    simp only [loadV, Res.ok_bind, ← BitVec.add_assoc, se]
    rfl
  case lasx =>
    refine ⟨rfl, ?_⟩
    rw [effect_32 ho rfl rfl, pexec32, te]
    simp only [loadV, Res.ok_bind, getBase_pc, base (by simp)]
    cases getBaseAddress s i.arg1 (signExtend16 (i.arg2 + s.mem s.top)) with
    | ub => rfl
    | hang => rfl
    | ok a => simp only [Res.ok_bind, se]; rfl
  case ldsx =>
    refine ⟨rfl, ?_⟩
    rw [effect_32 ho rfl rfl, pexec32, te]
    simp only [loadV, Res.ok_bind, getBase_pc, base (by simp)]
    cases getBaseAddress s i.arg1 (signExtend16 (i.arg2 + s.mem s.top)) with
    | ub => rfl
    | hang => rfl
    | ok a =>
      simp only [Res.ok_bind, VM.getStack, VM.rd]
      split
      · simp only [Res.ok_bind, se]; rfl
      · rfl
  case ldsxb =>
    refine ⟨rfl, ?_⟩
    rw [effect_32 ho rfl rfl, pexec32, te]
    simp only [loadV, Res.ok_bind, getBase_pc, base (by simp)]
    cases getBaseAddress s i.arg1 (signExtend16 (i.arg2 + s.mem s.top)) with
    | ub => rfl
    | hang => rfl
    | ok a =>
      simp only [Res.ok_bind, VM.rdB]
      split
      · simp only [Res.ok_bind, se]; rfl
      · rfl
  case uldsxb =>
    refine ⟨rfl, ?_⟩
    rw [effect_32 ho rfl rfl, pexec32, te]
    simp only [loadV, Res.ok_bind, getBase_pc, base (by simp)]
    cases getBaseAddress s i.arg1 (signExtend16 (i.arg2 + s.mem s.top)) with
    | ub => rfl
    | hang => rfl
    | ok a =>
      simp only [Res.ok_bind, VM.rdB]
      split
      · simp only [Res.ok_bind, se]; rfl
      · rfl

/-- Frame addresses only depend on the words read. -/
theorem chase_in {s t : VM} {Q : Nat → Prop} (hw : t.words = s.words)
    (hm : ∀ j, Q j → t.mem j = s.mem j) : ∀ {d : Nat} {f g : Word}, LinkIn s Q d f g →
    chase t d f = .ok g ∧ chase s d f = .ok g := by
  intro d f g h
  induction h with
  | here f => exact ⟨rfl, rfl⟩
  | out inside q _ ih =>
    constructor
    · rw [chase, VM.getStack, VM.rd_eq _ (by rw [hw]; exact inside), Res.ok_bind, hm _ q]
      exact ih.1
    · rw [chase, VM.getStack, VM.rd_eq _ inside]
      exact ih.2

theorem getBase_in {s t : VM} {Q : Nat → Prop} {lev : Byte} {f : Word} (hw : t.words = s.words)
    (hfp : t.fp = s.fp) (hm : ∀ j, Q j → t.mem j = s.mem j) (h : LinkIn s Q lev.toNat s.fp f)
    (off : Int) : getBaseAddress t lev off = getBaseAddress s lev off := by
  obtain ⟨h1, h2⟩ := chase_in hw hm h
  unfold getBaseAddress
  rw [hfp, h1, h2]

theorem LinkIn.mono {s : VM} {Q Q' : Nat → Prop} (hq : ∀ j, Q j → Q' j) {d : Nat} {f g : Word}
    (h : LinkIn s Q d f g) : LinkIn s Q' d f g := by
  induction h with
  | here f => exact .here f
  | out inside q _ ih => exact .out inside (hq _ q) ih

/-- What a store does with the memory. -/
def storeM (s : VM) (o : Op) (x : Byte) (w : Word) (m : Nat → Word) (v : Word) :
    Res (Nat → Word) :=
  match o with
  | .st => if (s.spb + w).toNat / 2 < s.words then .ok (updW m ((s.spb + w).toNat / 2) v) else .ub
  | .stb => if (s.spb + w).toNat < 2 * s.words then .ok (updB m (s.spb + w).toNat (v.truncate 8))
      else .ub
  | .sts => do
      let a ← getBaseAddress s x (signExtend16 w)
      if a.toNat / 2 < s.words then .ok (updW m (a.toNat / 2) v) else .ub
  | .stsb => do
      let a ← getBaseAddress s x (signExtend16 w)
      if a.toNat < 2 * s.words then .ok (updB m a.toNat (v.truncate 8)) else .ub
  | _ => .ub

def isStoreOp : Op → Bool
  | .st | .stb | .sts | .stsb => true
  | _ => false

theorem isStore_op {i : OpType} (h : isStore i = true) :
    ∃ o, i.op = o.toByte ∧ isStoreOp o = true := by
  unfold isStore at h
  cases ho : Op.ofByte i.op with
  | none => rw [ho] at h; cases h
  | some o =>
    rw [ho] at h
    refine ⟨o, (Op.toByte_ofByte ho).symm, ?_⟩
    cases o <;> first | rfl | cases h

theorem isStoreOp_plain {o : Op} (h : isStoreOp o = true) : isPlain o = true := by
  cases o <;> first | rfl | cases h

theorem store_effect {lib : Lib} {i : OpType} {o : Op} {s : VM} (ho : i.op = o.toByte)
    (hl : isStoreOp o = true) (ht : s.top < s.words) :
    effect lib i s = (do
      let m ← storeM s o i.arg1 i.arg2 s.mem (s.mem s.top)
      .ok { s with
        sp := s.sp - 2#16
        mem := m }) := by
  have pe : ∀ pc, ({ s with pc := pc } : VM).pop =
      .ok (s.mem s.top, { s with
        sp := s.sp - 2#16
        pc := pc }) :=
    fun pc => VM.pop_eq _ (by exact ht)
  cases o <;> first | (cases hl; done) | skip
  case st =>
    rw [effect_24 ho rfl rfl, pexec24, pe]
    simp only [storeM, Res.ok_bind, VM.putStack, VM.wr]
    split <;> rfl
  case stb =>
    rw [effect_24 ho rfl rfl, pexec24, pe]
    simp only [storeM, Res.ok_bind, VM.wrB]
    split <;> rfl
  case sts =>
    rw [effect_32 ho rfl rfl, pexec32]
    simp only [storeM, getBase_pc, pe]
    cases getBaseAddress s i.arg1 (signExtend16 i.arg2) with
    | ub => rfl
    | hang => rfl
    | ok a =>
      simp only [Res.ok_bind, VM.putStack, VM.wr]
      split <;> rfl
  case stsb =>
    rw [effect_32 ho rfl rfl, pexec32]
    simp only [storeM, getBase_pc, pe]
    cases getBaseAddress s i.arg1 (signExtend16 i.arg2) with
    | ub => rfl
    | hang => rfl
    | ok a =>
      simp only [Res.ok_bind, VM.wrB]
      split <;> rfl

theorem dupI {i : OpType} (h : i.op = Op.dup.toByte) (lib : Lib) (rest : List OpType) {s : VM}
    (hf : Free s 1) : execSeq lib (i :: rest) s = execSeq lib rest (psh s (s.mem s.top)) := by
  rw [execSeq_plain h rfl, effect_8 h rfl rfl, pexec8,
    VM.tos_eq _ (by exact hf.lt) (by omega), Res.ok_bind]
  have : ∀ v, ({ s with pc := 0 } : VM).push v = .ok { psh s v with pc := 0 } :=
    fun v => push_effect hf
  rw [this]
  rfl

theorem indsI {i : OpType} (h : i.op = Op.inds.toByte) (lib : Lib) (rest : List OpType) (s : VM) :
    execSeq lib (i :: rest) s = execSeq lib rest { s with sp := s.sp + i.arg2 } := by
  rw [execSeq_plain h rfl, effect_24 h rfl rfl, pexec24]
  simp only [signExtend16, BitVec.ofInt_toInt]
  rfl

theorem xchgI {i : OpType} (h : i.op = Op.xchg.toByte) (lib : Lib) (rest : List OpType) {s : VM}
    (h1 : 1 ≤ s.top) (h2 : s.top < s.words) : execSeq lib (i :: rest) s =
      execSeq lib rest { s with
        mem := updW (updW s.mem s.top (s.mem (s.top - 1))) (s.top - 1) (s.mem s.top) } := by
  rw [execSeq_plain h rfl, effect_8 h rfl rfl, pexec8]
  have t0 : ∀ t : VM, t.top = s.top → t.words = s.words → t.tos 0 = .ok (t.mem s.top) := by
    intro t e1 e2; rw [VM.tos_eq _ (by rw [e1, e2]; exact h2) (by omega), e1]; rfl
  rw [VM.tos_eq _ (by exact h2) (by omega), Res.ok_bind, VM.tos_eq _ (by exact h2) (by exact h1),
    Res.ok_bind, VM.setTos_eq _ _ (by exact h2) (by omega), Res.ok_bind,
    VM.setTos_eq _ _ (by exact h2) (by exact h1), Res.ok_bind]
  rfl

end Pas
