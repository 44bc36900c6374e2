import Verif.Spec.Peephole
import Verif.Model.Peephole
import Verif.Lemmas.PCode

/-! Helper lemmas about short instruction sequences. -/
namespace Pas
open Spec Popt

/-- Push a word. -/
def psh (s : VM) (v : Word) : VM := { s with sp := s.sp + 2#16, mem := updW s.mem (s.top + 1) v }

/-- Replace the top word. -/
def rep1 (s : VM) (v : Word) : VM := { s with mem := updW s.mem s.top v }

/-- Replace the two top words by one. -/
def rep2 (s : VM) (v : Word) : VM := { s with sp := s.sp - 2#16, mem := updW s.mem (s.top - 1) v }

/-- Room for `n` more words. -/
def Free (s : VM) (n : Nat) : Prop := s.top + n < s.words ∧ s.words ≤ 32768

theorem _root_.Pas.Spec.Roomy.top {s : VM} (h : Roomy s) : 3 ≤ s.top := h.1
theorem _root_.Pas.Spec.Roomy.free {s : VM} (h : Roomy s) : Free s 4 := h.2
theorem Free.mono {s : VM} {n m : Nat} (h : Free s n) (hm : m ≤ n) : Free s m :=
  ⟨by have := h.1; omega, h.2⟩
theorem Free.lt {s : VM} {n : Nat} (h : Free s n) : s.top < s.words := by have := h.1; omega

theorem psh_top {s : VM} {v : Word} (h : Free s 1) : (psh s v).top = s.top + 1 :=
  VM.add2_div _ (by have h1 := h.1; have h2 := h.2; simp only [VM.top] at h1; omega)

theorem rep2_top {s : VM} {v : Word} (h : 1 ≤ s.top) : (rep2 s v).top = s.top - 1 :=
  VM.sub2_div _ h

theorem rep1_top (s : VM) (v : Word) : (rep1 s v).top = s.top := rfl

theorem psh_free {s : VM} {v : Word} {n : Nat} (h : Free s (n + 1)) : Free (psh s v) n := by
  have h1 := h.1
  refine ⟨?_, h.2⟩
  rw [psh_top (h.mono (by omega))]
  show s.top + 1 + n < s.words
  omega

theorem psh_mem_top {s : VM} {v : Word} (h : Free s 1) : (psh s v).mem (psh s v).top = v := by
  rw [psh_top h]; exact updW_same _ _ _

theorem psh_mem {s : VM} {v : Word} {j : Nat} (h : j ≤ s.top) : (psh s v).mem j = s.mem j :=
  updW_other _ _ (by omega)

/-- The instruction pushes the constant `c`. -/
def PushI (i : OpType) (c : Word) : Prop :=
  ∀ lib rest s, Free s 1 → execSeq lib (i :: rest) s = execSeq lib rest (psh s c)

/-- The instruction applies `f` to the top word. -/
def UnI (i : OpType) (f : Word → Word) : Prop :=
  ∀ lib rest s, 1 ≤ s.top → s.top < s.words →
    execSeq lib (i :: rest) s = execSeq lib rest (rep1 s (f (s.mem s.top)))

/-- The instruction applies `f` to the two top words. -/
def BinI (i : OpType) (f : Word → Word → Res Word) : Prop :=
  ∀ lib rest s, 1 ≤ s.top → s.top < s.words →
    execSeq lib (i :: rest) s =
      (do let r ← f (s.mem (s.top - 1)) (s.mem s.top); execSeq lib rest (rep2 s r))

/-- The instruction is a jump on the top word. -/
def J1I (i : OpType) (f : Word → Bool) : Prop :=
  ∀ lib rest s, execSeq lib (i :: rest) s =
    if f (s.mem s.top) then .ok (some i.arg2, popN s 1) else execSeq lib rest (popN s 1)

/-- The instruction is a jump on the two top words. -/
def J2I (i : OpType) (f : Word → Word → Bool) : Prop :=
  ∀ lib rest s, execSeq lib (i :: rest) s =
    if f (s.mem (s.top - 1)) (s.mem s.top) then .ok (some i.arg2, popN s 2)
    else execSeq lib rest (popN s 2)

/-- One-operand instructions. -/
def unF : Op → Option (Word → Word)
  | .neg => some fun a => BitVec.ofInt 16 (-a.toInt)
  | .abs_ => some fun a => if a.toInt < 0 then BitVec.ofInt 16 (-a.toInt) else a
  | .inc => some fun a => a + 1#16
  | .dec => some fun a => a - 1#16
  | .not_ => some fun a => ~~~a
  | .equz => some fun a => pasBool (decide (a.toInt = 0))
  | .neqz => some fun a => pasBool (decide (a.toInt ≠ 0))
  | .ltz => some fun a => pasBool (decide (a.toInt < 0))
  | .gtez => some fun a => pasBool (decide (a.toInt ≥ 0))
  | .gtz => some fun a => pasBool (decide (a.toInt > 0))
  | .ltez => some fun a => pasBool (decide (a.toInt ≤ 0))
  | _ => none

/-- Two-operand instructions. -/
def binF : Op → Option (Word → Word → Res Word)
  | .add => some fun a b => .ok (BitVec.ofInt 16 (a.toInt + b.toInt))
  | .sub => some fun a b => .ok (BitVec.ofInt 16 (a.toInt - b.toInt))
  | .mul => some fun a b => .ok (BitVec.ofInt 16 (a.toInt * b.toInt))
  | .umul => some fun a b =>
      if a.toNat * b.toNat < 2147483648 then .ok (BitVec.ofNat 16 (a.toNat * b.toNat)) else .ub
  | .div_ => some fun a b =>
      if b.toInt = 0 then .ub else .ok (BitVec.ofInt 16 (Int.tdiv a.toInt b.toInt))
  | .udiv => some fun a b =>
      if b.toNat = 0 then .ub else .ok (BitVec.ofNat 16 (a.toNat / b.toNat))
  | .mod_ => some fun a b =>
      if b.toInt = 0 then .ub else .ok (BitVec.ofInt 16 (Int.tmod a.toInt b.toInt))
  | .umod => some fun a b =>
      if b.toNat = 0 then .ub else .ok (BitVec.ofNat 16 (a.toNat % b.toNat))
  | .sll => some fun a b => if shiftOk b then .ok (BitVec.ofInt 16 (a.toInt * 2 ^ b.toNat)) else .ub
  | .srl => some fun a b => if shiftOk b then .ok (BitVec.ofNat 16 (a.toNat >>> b.toNat)) else .ub
  | .sra => some fun a b => if shiftOk b then .ok (BitVec.ofInt 16 (a.toInt >>> b.toNat)) else .ub
  | .or_ => some fun a b => .ok (a ||| b)
  | .and_ => some fun a b => .ok (a &&& b)
  | .xor_ => some fun a b => .ok (a ^^^ b)
  | .equ => some fun a b => .ok (pasBool (decide (b.toInt = a.toInt)))
  | .neq => some fun a b => .ok (pasBool (decide (b.toInt ≠ a.toInt)))
  | .lt => some fun a b => .ok (pasBool (decide (b.toInt > a.toInt)))
  | .gte => some fun a b => .ok (pasBool (decide (b.toInt ≤ a.toInt)))
  | .gt => some fun a b => .ok (pasBool (decide (b.toInt < a.toInt)))
  | .lte => some fun a b => .ok (pasBool (decide (b.toInt ≥ a.toInt)))
  | .ult => some fun a b => .ok (pasBool (decide (b.toNat > a.toNat)))
  | .ugte => some fun a b => .ok (pasBool (decide (b.toNat ≤ a.toNat)))
  | .ugt => some fun a b => .ok (pasBool (decide (b.toNat < a.toNat)))
  | .ulte => some fun a b => .ok (pasBool (decide (b.toNat ≥ a.toNat)))
  | _ => none

theorem ofByte_of {i : OpType} {o : Op} (h : i.op = o.toByte) : Op.ofByte i.op = some o := by
  rw [h, Op.ofByte_toByte]

theorem isPlain_branch {o : Op} (h : isPlain o = true) (s : VM) : branch s o = none := by
  cases o <;> first | rfl | exact absurd h (by decide)

theorem execSeq_plain {lib : Lib} {i : OpType} {o : Op} (ho : i.op = o.toByte)
    (hp : isPlain o = true) (rest : List OpType) (s : VM) :
    execSeq lib (i :: rest) s = (do let s' ← effect lib i s; execSeq lib rest s') := by
  rw [execSeq, ofByte_of ho]
  simp only
  rw [isPlain_branch hp]
  simp only
  rw [if_pos hp]

theorem effect_8 {lib : Lib} {i : OpType} {o : Op} (ho : i.op = o.toByte) {s : VM}
    (h8 : hasArg8 o.toByte = false) (h16 : hasArg16 o.toByte = false) :
    effect lib i s = (do
      let (e, s') ← pexec8 { s with pc := 0 } (some o)
      if e = eNOERROR then .ok { s' with pc := s.pc } else .ub) := by
  rw [effect, alone, insn_8 (insn_alone ho.symm s) h8 h16]

theorem effect_16 {lib : Lib} {i : OpType} {o : Op} (ho : i.op = o.toByte) {s : VM}
    (h8 : hasArg8 o.toByte = true) (h16 : hasArg16 o.toByte = false) :
    effect lib i s = (do
      let (e, s') ← pexec16 lib { s with pc := 0 } (some o) i.arg1
      if e = eNOERROR then .ok { s' with pc := s.pc } else .ub) := by
  rw [effect, alone, insn_16 (insn_alone ho.symm s) h8 h16]

theorem effect_24 {lib : Lib} {i : OpType} {o : Op} (ho : i.op = o.toByte) {s : VM}
    (h8 : hasArg8 o.toByte = false) (h16 : hasArg16 o.toByte = true) :
    effect lib i s = (do
      let (e, s') ← pexec24 lib { s with pc := 0 } (some o) i.arg2
      if e = eNOERROR then .ok { s' with pc := s.pc } else .ub) := by
  rw [effect, alone, insn_24 (insn_alone ho.symm s) h8 h16]

theorem effect_32 {lib : Lib} {i : OpType} {o : Op} (ho : i.op = o.toByte) {s : VM}
    (h8 : hasArg8 o.toByte = true) (h16 : hasArg16 o.toByte = true) :
    effect lib i s = (do
      let (e, s') ← pexec32 lib { s with pc := 0 } (some o) i.arg1 i.arg2
      if e = eNOERROR then .ok { s' with pc := s.pc } else .ub) := by
  rw [effect, alone, insn_32 (insn_alone ho.symm s) h8 h16]

theorem unI {i : OpType} {o : Op} {f : Word → Word} (ho : i.op = o.toByte) (hf : unF o = some f) :
    UnI i f := by
  intro lib rest s h1 h2
  have hp : isPlain o = true := by cases o <;> first | rfl | cases hf
  rw [execSeq_plain ho hp]
  have key : effect lib i s = .ok (rep1 s (f (s.mem s.top))) := by
    cases o <;> first | cases hf | skip
    all_goals
      rw [effect_8 ho rfl rfl, pexec8]
      first
        | (rw [unop_eq _ _ (by exact h2)]; rfl)
        | (rw [cmpz_eq _ _ (by exact h1) (by exact h2)]; rfl)
        | skip
    rw [VM.tos_eq _ (by exact h2) (by omega), Res.ok_bind]
    show _ = Res.ok (rep1 s (if (s.mem s.top).toInt < 0 then
      BitVec.ofInt 16 (-(s.mem s.top).toInt) else s.mem s.top))
    split
    · next hc =>
      have hc' : (s.mem s.top).toInt < 0 := hc
      rw [VM.setTos_eq _ _ (by exact h2) (by omega), if_pos hc']
      rfl
    · next hc =>
      have hc' : ¬ (s.mem s.top).toInt < 0 := hc
      rw [if_neg hc', rep1, updW_id]
      rfl
  rw [key, Res.ok_bind]

theorem binI {i : OpType} {o : Op} {f : Word → Word → Res Word} (ho : i.op = o.toByte)
    (hf : binF o = some f) : BinI i f := by
  intro lib rest s h1 h2
  have hp : isPlain o = true := by cases o <;> first | rfl | cases hf
  rw [execSeq_plain ho hp]
  have key : effect lib i s =
      (do let r ← f (s.mem (s.top - 1)) (s.mem s.top); .ok (rep2 s r)) := by
    have fin : ∀ r : Res Word, (do
        let (e, s') ← (do let r ← r; Res.ok (eNOERROR, { s with
            sp := s.sp - 2#16, pc := 0 + 1#16, mem := updW s.mem (s.top - 1) r }))
        if e = eNOERROR then Res.ok { s' with pc := s.pc } else .ub) =
        (do let r ← r; .ok (rep2 s r)) := by
      intro r; cases r <;> rfl
    cases o <;> first | cases hf | skip
    all_goals
      rw [effect_8 ho rfl rfl, pexec8, binop_eq _ _ (by exact h1) (by exact h2)]
      exact fin _
  rw [key, bind_assoc]
  congr 1

theorem nopI (lib : Lib) (rest : List OpType) (s : VM) :
    execSeq lib (nop :: rest) s = execSeq lib rest s := by
  rw [execSeq_plain (i := nop) (o := .nop) rfl rfl, effect_8 (i := nop) (o := .nop) rfl rfl rfl, pexec8]
  rfl

theorem push_effect {s : VM} {v : Word} {pc : Word} (h : Free s 1) :
    ({ s with pc := pc } : VM).push v = .ok { psh s v with pc := pc } := by
  rw [VM.push_eq _ _ (by exact h.1) (by show s.top + 1 < 32768; have := h.1; have := h.2; omega)]
  rfl

theorem pushI_push {i : OpType} (h : i.op = Op.push.toByte) : PushI i i.arg2 := by
  intro lib rest s hf
  rw [execSeq_plain h rfl, effect_24 h rfl rfl, pexec24, push_effect hf]
  rfl

theorem pushI_pushb {i : OpType} (h : i.op = Op.pushb.toByte) : PushI i (signExtend8 i.arg1) := by
  intro lib rest s hf
  rw [execSeq_plain h rfl, effect_16 h rfl rfl, pexec16, push_effect hf]
  rfl

theorem pushI_upushb {i : OpType} (h : i.op = Op.upushb.toByte) :
    PushI i (i.arg1.zeroExtend 16) := by
  intro lib rest s hf
  rw [execSeq_plain h rfl, effect_16 h rfl rfl, pexec16, push_effect hf]
  rfl

theorem isPush_cases {i : OpType} (h : isPush i = true) :
    i.op = Op.push.toByte ∨ i.op = Op.pushb.toByte ∨ i.op = Op.upushb.toByte := by
  unfold isPush at h
  have key : ∀ o, Op.ofByte i.op = some o → i.op = o.toByte := by
    intro o ho
    exact (Op.toByte_ofByte ho).symm
  cases ho : Op.ofByte i.op with
  | none => rw [ho] at h; exact absurd h (by decide)
  | some o =>
    rw [ho] at h
    have := key o ho
    cases o <;> first | (exact absurd h (by decide)) | skip
    · exact .inr (.inl this)
    · exact .inr (.inr this)
    · exact .inl this

/-- The expanded form of a constant is a PUSH. -/
theorem expandPush_op {i : OpType} (h : isPush i = true) : (expandPush i).op = Op.push.toByte := by
  rcases isPush_cases h with e | e | e <;> simp [expandPush, e, Op.toByte]

theorem pushI {i : OpType} (h : isPush i = true) : PushI i (expandPush i).arg2 := by
  rcases isPush_cases h with e | e | e
  · have : expandPush i = i := by simp [expandPush, e, Op.toByte]
    rw [this]; exact pushI_push e
  · have : (expandPush i).arg2 = signExtend8 i.arg1 := by simp [expandPush, e]
    rw [this]; exact pushI_pushb e
  · have : (expandPush i).arg2 = i.arg1.zeroExtend 16 := by simp [expandPush, e, Op.toByte]
    rw [this]; exact pushI_upushb e

/-- The jumps on the top word. -/
def j1F : Op → Option (Word → Bool)
  | .jequz => some fun a => decide (a.toInt = 0)
  | .jneqz => some fun a => decide (a.toInt ≠ 0)
  | .jltz => some fun a => decide (a.toInt < 0)
  | .jgtez => some fun a => decide (a.toInt ≥ 0)
  | .jgtz => some fun a => decide (a.toInt > 0)
  | .jltez => some fun a => decide (a.toInt ≤ 0)
  | _ => none

/-- The jumps on the two top words. -/
def j2F : Op → Option (Word → Word → Bool)
  | .jequ => some fun a b => decide (a.toInt = b.toInt)
  | .jneq => some fun a b => decide (a.toInt ≠ b.toInt)
  | .jlt => some fun a b => decide (a.toInt < b.toInt)
  | .jgte => some fun a b => decide (a.toInt ≥ b.toInt)
  | .jgt => some fun a b => decide (a.toInt > b.toInt)
  | .jlte => some fun a b => decide (a.toInt ≤ b.toInt)
  | .jult => some fun a b => decide (a.toNat < b.toNat)
  | .jugte => some fun a b => decide (a.toNat ≥ b.toNat)
  | .jugt => some fun a b => decide (a.toNat > b.toNat)
  | .julte => some fun a b => decide (a.toNat ≤ b.toNat)
  | _ => none

theorem j1I {i : OpType} {o : Op} {f : Word → Bool} (ho : i.op = o.toByte) (hf : j1F o = some f) :
    J1I i f := by
  intro lib rest s
  rw [execSeq, ofByte_of ho]
  have hb : branch s o = some (1, f (s.mem s.top)) := by
    cases o <;> first | (cases hf; rfl) | cases hf
  simp only [hb]
  cases f (s.mem s.top) <;> rfl

theorem j2I {i : OpType} {o : Op} {f : Word → Word → Bool} (ho : i.op = o.toByte)
    (hf : j2F o = some f) : J2I i f := by
  intro lib rest s
  rw [execSeq, ofByte_of ho]
  have hb : branch s o = some (2, f (s.mem (s.top - 1)) (s.mem s.top)) := by
    cases o <;> first | (cases hf; rfl) | cases hf
  simp only [hb]
  cases f (s.mem (s.top - 1)) (s.mem s.top) <;> rfl

theorem jmpI {i : OpType} (ho : i.op = Op.jmp.toByte) (lib : Lib) (rest : List OpType) (s : VM) :
    execSeq lib (i :: rest) s = .ok (some i.arg2, popN s 0) := by
  rw [execSeq, ofByte_of ho]
  rfl

/-! States that agree on the live part. -/

theorem sameLive_refl {n : Nat} (s : VM) : SameLive n s s := ⟨rfl, fun _ _ => rfl⟩

theorem rep1_psh {s : VM} (h : Free s 1) (x y : Word) : rep1 (psh s x) y = psh s y := by
  rw [rep1, psh_top h]
  simp only [psh, updW_updW]

/-- Push and combine: the word above the top is garbage. -/
theorem live_rep2_psh {s : VM} (h : Free s 1) (x y : Word) : SameLive s.top (rep2 (psh s x) y) (rep1 s y) := by
  have e : (rep2 (psh s x) y).sp = s.sp := by simp [rep2, psh, BitVec.add_sub_cancel]
  refine ⟨?_, ?_⟩
  · simp [rep2, rep1, psh, BitVec.add_sub_cancel]
  · intro i hi
    rw [e] at hi
    have hi' : i ≤ s.top ∨ s.top + 2 < i := hi
    show updW s.mem s.top y i = updW (updW s.mem (s.top + 1) x) ((psh s x).top - 1) y i
    rw [psh_top h, Nat.add_sub_cancel]
    by_cases h1 : i = s.top
    · rw [h1, updW_same, updW_same]
    · rw [updW_other _ _ h1, updW_other _ _ h1, updW_other _ _ (by omega)]

theorem live_rep2_psh2 {s : VM} (h : Free s 2) (x y z : Word) :
    SameLive s.top (rep2 (psh (psh s x) y) z) (psh s z) := by
  have h1 : Free (psh s x) 1 := psh_free h
  have e : (rep2 (psh (psh s x) y) z).sp = s.sp + 2#16 := by simp [rep2, psh, BitVec.add_sub_cancel]
  have ht := psh_top (v := x) (h.mono (by omega))
  refine ⟨?_, ?_⟩
  · simp [rep2, psh, BitVec.add_sub_cancel]
  · intro i hi
    rw [e] at hi
    have hi' : i ≤ s.top + 1 ∨ s.top + 2 < i := by rw [← ht]; exact hi
    show updW s.mem (s.top + 1) z i =
      updW (updW (updW s.mem (s.top + 1) x) ((psh s x).top + 1) y) ((psh (psh s x) y).top - 1) z i
    rw [psh_top h1, ht, Nat.add_sub_cancel]
    by_cases hi1 : i = s.top + 1
    · rw [hi1, updW_same, updW_same]
    · rw [updW_other _ _ hi1, updW_other _ _ hi1, updW_other _ _ (by omega), updW_other _ _ hi1]

theorem popN_psh {s : VM} (x : Word) : SameLive s.top (popN (psh s x) 1) s := by
  have e : (popN (psh s x) 1).sp = s.sp := by simp [popN, psh, BitVec.add_sub_cancel]
  refine ⟨?_, ?_⟩
  · simp [popN, psh, BitVec.add_sub_cancel]
  · intro i hi
    rw [e] at hi
    have hi' : i ≤ s.top ∨ s.top + 2 < i := hi
    show s.mem i = updW s.mem (s.top + 1) x i
    rw [updW_other _ _ (by omega)]

/-- A replaced word that is popped. -/
theorem popN_rep1 {s : VM} (h : 1 ≤ s.top) (x : Word) : SameLive s.top (popN (rep1 s x) 1) (popN s 1) := by
  refine ⟨rfl, ?_⟩
  intro i hi
  have e : (popN (rep1 s x) 1).sp.toNat / 2 = s.top - 1 := VM.sub2_div _ h
  rw [e] at hi
  show s.mem i = updW s.mem s.top x i
  rw [updW_other _ _ (by omega)]

theorem popN_rep2 {s : VM} (h : 2 ≤ s.top) (x : Word) : SameLive s.top (popN (rep2 s x) 1) (popN s 2) := by
  have hsp : s.sp - 2#16 - 2#16 = s.sp - 4#16 := by bv_omega
  have e : (popN (rep2 s x) 1).sp.toNat / 2 = s.top - 2 := by
    show (s.sp - 2#16 - 2#16).toNat / 2 = s.sp.toNat / 2 - 2
    have h' : 2 ≤ s.sp.toNat / 2 := h
    bv_omega
  refine ⟨?_, ?_⟩
  · show ({ s with sp := s.sp - 4#16 } : VM) = { s with sp := s.sp - 2#16 - 2#16 }
    rw [hsp]
  · intro i hi
    rw [e] at hi
    show s.mem i = updW s.mem (s.top - 1) x i
    rw [updW_other _ _ (by omega)]

theorem popN_zero (s : VM) : popN s 0 = s := by simp [popN]

end Pas
