import Verif.Model.Optimize

/-! What the rules of the optimizer can write, and a weight that every rewriting decreases. -/
namespace Pas.Popt

/-- Instructions the optimizer never touches. -/
def fixedOp : Op → Bool
  | .ret | .end_ | .label | .pcal | .line => true
  | _ => false

def isFixed (i : OpType) : Bool := ((Op.ofByte i.op).map fixedOp).getD false

/-- Opcodes that rules write. -/
def madeOp : Op → Bool
  | .nop | .push | .pushb | .upushb | .inc | .dec | .sll | .sra | .srl | .neg | .dup | .sub
  | .equz | .neqz | .ltz | .gtez | .gtz | .ltez
  | .equ | .neq | .lt | .gte | .gt | .lte | .ult | .ugte | .ugt | .ulte
  | .jmp | .jequz | .jneqz | .jltz | .jgtez | .jgtz | .jltez
  | .jequ | .jneq | .jlt | .jgte | .jgt | .jlte | .jult | .jugte | .jugt | .julte
  | .ld | .ldb | .uldb | .lds | .ldsb | .uldsb | .la | .las | .ldm | .ldsm
  | .st | .stb | .sts | .stsb => true
  | _ => false

def made (i : OpType) : Bool := ((Op.ofByte i.op).map madeOp).getD false

/-- Jumps (the long operations from 0xc0 on are jumps too). -/
def jumpOp : Op → Bool
  | .jmp | .jequz | .jneqz | .jltz | .jgtez | .jgtz | .jltez
  | .jequ | .jneq | .jlt | .jgte | .jgt | .jlte | .jult | .jugte | .jugt | .julte => true
  | _ => false

def isJump (i : OpType) : Bool :=
  ((Op.ofByte i.op).map jumpOp).getD false || (isLong i && decide (0xc0 ≤ i.arg1.toNat))

/-- The weight of an opcode. -/
def wtOp : Op → Nat
  | .nop => 0
  | .inc | .dec | .dup => 2
  | .mul | .umul | .div_ | .udiv | .longop8 => 4
  | _ => 3

/-- Long multiplications and divisions weigh more. -/
def longMul (b : Byte) : Bool :=
  b == 0x48#8 || b == 0x61#8 || b == 0x49#8 || b == 0x62#8

def wt (i : OpType) : Nat :=
  ((Op.ofByte i.op).map wtOp).getD 3 + (if isLong i && longMul i.arg1 then 1 else 0)

/-- `y` is something the optimizer writes in place of the instructions `xs`. -/
structure Out (xs : List OpType) (y : OpType) : Prop where
  op : (∃ x ∈ xs, x.op = y.op) ∨ made y = true
  jump : isJump y = true → ∃ x ∈ xs, isJump x = true ∧ x.arg2 = y.arg2

theorem ofByte_some {b : Byte} {o : Op} (h : Op.ofByte b = some o) : b = o.toByte := by
  unfold Op.ofByte at h
  have := List.find?_some h
  exact (beq_iff_eq.mp this).symm

theorem isLong_toByte (o : Op) (a : Byte) (w : Word) : isLong ⟨o.toByte, a, w⟩ = decide (o = .longop8) := by
  unfold isLong
  by_cases h : o = .longop8
  · subst h; rfl
  · simp only [h, decide_false, beq_eq_false_iff_ne]
    exact fun e => h (Op.toByte_inj e)

theorem wt_le5 (i : OpType) : wt i ≤ 5 := by
  unfold wt
  have : ((Op.ofByte i.op).map wtOp).getD 3 ≤ 4 := by
    cases Op.ofByte i.op with
    | none => decide
    | some o => cases o <;> decide
  split <;> omega

theorem wt_nop : wt nop = 0 := rfl

theorem wt_pos {i : OpType} (h : i.op ≠ Op.nop.toByte) : 2 ≤ wt i := by
  unfold wt
  have : 2 ≤ ((Op.ofByte i.op).map wtOp).getD 3 := by
    cases h' : Op.ofByte i.op with
    | none => decide
    | some o =>
      have := ofByte_some h'
      cases o <;> first | decide | exact absurd this h
  omega

theorem isPush_cases {i : OpType} (h : isPush i = true) :
    i.op = Op.push.toByte ∨ i.op = Op.pushb.toByte ∨ i.op = Op.upushb.toByte := by
  unfold isPush at h
  split at h
  · next e => exact Or.inl (ofByte_some e)
  · next e => exact Or.inr (Or.inl (ofByte_some e))
  · next e => exact Or.inr (Or.inr (ofByte_some e))
  · cases h

theorem expandPush_eq {i : OpType} (h : isPush i = true) :
    expandPush i = ⟨Op.push.toByte, (expandPush i).arg1, (expandPush i).arg2⟩ := by
  rcases isPush_cases h with e | e | e <;> unfold expandPush <;> rw [e]
  · rw [if_neg (by decide), if_neg (by decide), ← e]
  · rw [if_pos rfl]
  · rw [if_neg (by decide), if_pos rfl]

theorem wt_of_op {i : OpType} {o : Op} (h : i.op = o.toByte) (hl : o ≠ .longop8) : wt i = wtOp o := by
  unfold wt
  have : isLong i = false := by
    unfold isLong; rw [h, beq_eq_false_iff_ne]; exact fun e => hl (Op.toByte_inj e)
  rw [h, Op.ofByte_toByte, this]
  rfl

theorem wt_mk (o : Op) (x : Byte) (w : Word) :
    wt ⟨o.toByte, x, w⟩ = wtOp o + (if o = .longop8 ∧ longMul x = true then 1 else 0) := by
  unfold wt
  rw [isLong_toByte, Op.ofByte_toByte]
  by_cases h : o = .longop8 <;> simp [h]

theorem wt_withOp (i : OpType) (o : Op) :
    wt (withOp i o) = wtOp o + (if o = .longop8 ∧ longMul i.arg1 = true then 1 else 0) := wt_mk ..

theorem wt_push {i : OpType} (h : isPush i = true) : wt i = 3 := by
  rcases isPush_cases h with e | e | e <;> exact (wt_of_op e (by decide)).trans rfl

theorem made_of_op {i : OpType} {o : Op} (h : i.op = o.toByte) : made i = madeOp o := by
  unfold made; rw [h, Op.ofByte_toByte]; rfl

theorem isJump_of_op {i : OpType} {o : Op} (h : i.op = o.toByte) (hl : o ≠ .longop8) :
    isJump i = jumpOp o := by
  unfold isJump
  have : isLong i = false := by
    unfold isLong; rw [h, beq_eq_false_iff_ne]; exact fun e => hl (Op.toByte_inj e)
  rw [h, Op.ofByte_toByte, this]
  cases o <;> rfl

theorem out_made {xs : List OpType} {y : OpType} {o : Op} (h : y.op = o.toByte)
    (hm : madeOp o = true) (hj : jumpOp o = false) : Out xs y :=
  have hl : o ≠ .longop8 := by rintro rfl; cases hm
  ⟨Or.inr ((made_of_op h).trans hm), fun hy => by rw [isJump_of_op h hl, hj] at hy; cases hy⟩

theorem out_withOp {xs : List OpType} {b : OpType} {o : Op} (hm : madeOp o = true)
    (hj : jumpOp o = false) : Out xs (withOp b o) := out_made rfl hm hj

theorem out_mk {xs : List OpType} {o : Op} {x : Byte} {w : Word} (hm : madeOp o = true)
    (hj : jumpOp o = false) : Out xs ⟨o.toByte, x, w⟩ := out_made rfl hm hj

theorem out_jump {xs : List OpType} {x y : OpType} {o o' : Op} (h : y.op = o.toByte)
    (hm : madeOp o = true) (hx : x ∈ xs) (hxo : x.op = o'.toByte) (hxj : jumpOp o' = true)
    (ha : x.arg2 = y.arg2) : Out xs y :=
  have hl : o' ≠ .longop8 := by rintro rfl; cases hxj
  ⟨Or.inr ((made_of_op h).trans hm), fun _ => ⟨x, hx, (isJump_of_op hxo hl).trans hxj, ha⟩⟩

theorem out_same {xs : List OpType} {y : OpType} (h : y ∈ xs) : Out xs y :=
  ⟨Or.inl ⟨y, h, rfl⟩, fun hj => ⟨y, h, hj, rfl⟩⟩

theorem out_op {xs : List OpType} {x y : OpType} {o : Op} (h : x ∈ xs) (ho : x.op = o.toByte)
    (e : y.op = x.op) (hj : jumpOp o = false) (hl : o ≠ .longop8) : Out xs y :=
  ⟨Or.inl ⟨x, h, e.symm⟩, fun hy => by
    rw [isJump_of_op (e.trans ho) hl, hj] at hy; cases hy⟩

theorem out_nop {xs : List OpType} : Out xs nop := out_made (o := .nop) rfl rfl rfl

theorem mono_out {xs ys : List OpType} {y : OpType} (h : Out xs y) (hs : ∀ x ∈ xs, x ∈ ys) : Out ys y :=
  ⟨h.op.imp (fun ⟨x, hx, e⟩ => ⟨x, hs x hx, e⟩) id,
    fun hj => have ⟨x, hx, e⟩ := h.jump hj; ⟨x, hs x hx, e⟩⟩

/-- Two instructions replaced by lighter ones. -/
structure Out2 (a b a' b' : OpType) : Prop where
  fst : Out [a, b] a'
  snd : Out [a, b] b'
  less : wt a' + wt b' < wt a + wt b

/-- Three instructions replaced by lighter ones. -/
structure Out3 (a b c a' b' c' : OpType) : Prop where
  fst : Out [a, b, c] a'
  snd : Out [a, b, c] b'
  thd : Out [a, b, c] c'
  less : wt a' + wt b' + wt c' < wt a + wt b + wt c

theorem push_not {i : OpType} (h : isPush i = true) : i.op ≠ Op.nop.toByte := by
  rcases isPush_cases h with e | e | e <;> rw [e] <;> decide

theorem unaryConst_out {a b a' b' : OpType} {c : Word} (ha : a.op = Op.push.toByte)
    (h : unaryConst a b c = .rewrite (a', b')) : Out2 a b a' b' := by
  have wa : wt a = 3 := wt_of_op ha (by decide)
  unfold unaryConst at h
  cases hb : Op.ofByte b.op with
  | none => rw [hb] at h; cases h
  | some o =>
    have ho := ofByte_some hb
    rw [hb] at h
    have keep : ∀ v, Out [a, b] { a with arg2 := v } := fun v =>
      out_op (x := a) (o := .push) (List.mem_cons_self ..) ha rfl rfl (by decide)
    have wk : ∀ v, wt { a with arg2 := v } = 3 := fun v => wt_of_op (o := .push) ha (by decide)
    have hbm : b ∈ [a, b] := List.mem_cons_of_mem _ (List.mem_cons_self ..)
    cases o <;> first
      | (cases h; done)
      | (have wb := wt_of_op (i := b) ho (by decide)
         simp only [wtOp] at wb
         dsimp only at h
         repeat' split at h
         all_goals first
          | (cases h; done)
          | (cases h
             refine ⟨?_, ?_, ?_⟩
             · first
               | exact keep _
               | exact out_nop
               | exact out_mk (o := .dec) rfl rfl
               | exact out_mk (o := .inc) rfl rfl
             · first
               | exact out_nop
               | exact out_jump (o := .jmp) rfl rfl hbm ho rfl rfl
               | exact out_withOp rfl rfl
             · simp [wk, wt_nop, wt_withOp, wt_mk, wa, wb, wtOp]))

theorem expandPush_op' {i : OpType} (h : isPush i = true) : (expandPush i).op = Op.push.toByte := by
  rw [expandPush_eq h]

theorem wt_expand {i : OpType} (h : isPush i = true) : wt (expandPush i) = wt i := by
  rw [wt_push h, wt_of_op (expandPush_op' h) (by decide)]; rfl

theorem push_notJump {i : OpType} (h : isPush i = true) : isJump i = false := by
  rcases isPush_cases h with e | e | e <;> exact (isJump_of_op e (by decide)).trans rfl

theorem Out2.of_expand {a b a' b' : OpType} (h : isPush a = true) (o : Out2 (expandPush a) b a' b') :
    Out2 a b a' b' := by
  have conv : ∀ y, Out [expandPush a, b] y → Out [a, b] y := by
    intro y hy
    refine ⟨?_, ?_⟩
    · rcases hy.op with ⟨x, hx, e⟩ | hm
      · rcases List.mem_cons.mp hx with rfl | hx
        · exact Or.inr ((made_of_op (e.symm.trans (expandPush_op' h))).trans rfl)
        · exact Or.inl ⟨x, List.mem_cons_of_mem _ hx, e⟩
      · exact Or.inr hm
    · intro hj
      have ⟨x, hx, hxj, e⟩ := hy.jump hj
      rcases List.mem_cons.mp hx with rfl | hx
      · rw [isJump_of_op (expandPush_op' h) (by decide)] at hxj; cases hxj
      · exact ⟨x, List.mem_cons_of_mem _ hx, hxj, e⟩
  exact ⟨conv _ o.fst, conv _ o.snd, by rw [← wt_expand h]; exact o.less⟩

theorem unaryRule_out {a b a' b' : OpType} (hb0 : b.op ≠ Op.nop.toByte)
    (h : unaryRule a b = .rewrite (a', b')) : Out2 a b a' b' := by
  unfold unaryRule at h
  by_cases ha : isPush a = true
  · rw [if_pos ha] at h
    exact (unaryConst_out (expandPush_op' ha) h).of_expand ha
  · rw [if_neg ha] at h
    have wb := wt_pos hb0
    split at h
    · next e =>
      have ho := ofByte_some e
      split at h <;> cases h
      exact ⟨out_op (x := a) (List.mem_cons_self ..) ho rfl rfl (by decide), out_nop, by
        have : wt { a with arg2 := a.arg2 + b.arg2 } = wt a := rfl
        rw [this, wt_nop]; omega⟩
    · next e =>
      have ho := ofByte_some e
      split at h <;> cases h
      exact ⟨out_op (x := a) (List.mem_cons_self ..) ho rfl rfl (by decide), out_nop, by
        have : wt { a with arg2 := a.arg2 + b.arg2 } = wt a := rfl
        rw [this, wt_nop]; omega⟩
    · split at h <;> cases h
      exact ⟨out_nop, out_nop, by rw [wt_nop]; omega⟩
    · split at h <;> cases h
      exact ⟨out_nop, out_nop, by rw [wt_nop]; omega⟩
    · cases h

theorem unaryRule_not_stuck (a b : OpType) : unaryRule a b ≠ .stuck := by
  intro h
  unfold unaryRule at h
  split at h
  · unfold unaryConst at h
    cases hb : Op.ofByte b.op with
    | none => rw [hb] at h; cases h
    | some o =>
      rw [hb] at h
      cases o <;> first
        | (cases h; done)
        | (dsimp only at h
           repeat' split at h
           all_goals cases h)
  · (repeat' split at h) <;> cases h

theorem comparison_made {o : Op} {x y z : Op} (h : comparison o = some (x, y, z)) :
    (madeOp x = true ∧ jumpOp x = false ∧ wtOp x = 3) ∧ (madeOp y = true ∧ wtOp y = 3) ∧
      (madeOp z = true ∧ wtOp z = 3) ∧ wtOp o = 3 ∧ o ≠ .longop8 := by
  cases o <;> first
    | (cases h; done)
    | (cases h; decide)

theorem branchRule_out {a b a' b' : OpType} (ha0 : a.op ≠ Op.nop.toByte)
    (h : branchRule a b = .rewrite (a', b')) : Out2 a b a' b' := by
  have wa := wt_pos ha0
  have hbm : b ∈ [a, b] := List.mem_cons_of_mem _ (List.mem_cons_self ..)
  have go : ∀ (o o' : Op), Op.ofByte b.op = some o → jumpOp o = true → wtOp o = 3 →
      madeOp o' = true → wtOp o' = 3 → o ≠ .longop8 → Out2 a b nop (withOp b o') := by
    intro o o' hb hj hw hm hw' hl
    have ho := ofByte_some hb
    have wb := wt_of_op ho hl
    have hl' : o' ≠ .longop8 := by rintro rfl; cases hm
    exact ⟨out_nop, out_jump rfl hm hbm ho hj rfl, by
      rw [wt_nop, wt_of_op (i := withOp b o') rfl hl', wb]; omega⟩
  unfold branchRule at h
  split at h
  · next e => cases h; exact go _ _ e rfl rfl rfl rfl (by decide)
  · next e => cases h; exact go _ _ e rfl rfl rfl rfl (by decide)
  · next e => cases h; exact go _ _ e rfl rfl rfl rfl (by decide)
  · next e => cases h; exact go _ _ e rfl rfl rfl rfl (by decide)
  · next e => cases h; exact go _ _ e rfl rfl rfl rfl (by decide)
  · next e => cases h; exact go _ _ e rfl rfl rfl rfl (by decide)
  · next o ea eb =>
    split at h
    · next hc =>
      cases h
      obtain ⟨⟨h1, h2, h3⟩, _, _, h4, h5⟩ := comparison_made hc
      have hl' : ∀ x : Op, madeOp x = true → x ≠ .longop8 := by rintro x hx rfl; cases hx
      refine ⟨out_withOp h1 h2, out_nop, ?_⟩
      rw [wt_nop, wt_of_op (i := withOp a _) rfl (hl' _ h1), wt_of_op (ofByte_some ea) h5,
        wt_of_op (ofByte_some eb) (by decide), h3, h4]
      decide
    · cases h
  · next eb =>
    split at h
    · next hc =>
      cases h
      obtain ⟨_, ⟨h1, h2⟩, _, _, _⟩ := comparison_made hc
      exact go _ _ eb rfl rfl h1 h2 (by decide)
    · cases h
  · next eb =>
    split at h
    · next hc =>
      cases h
      obtain ⟨_, _, ⟨h1, h2⟩, _, _⟩ := comparison_made hc
      exact go _ _ eb rfl rfl h1 h2 (by decide)
    · cases h
  · cases h

theorem branchRule_not_stuck (a b : OpType) : branchRule a b ≠ .stuck := by
  intro h
  unfold branchRule at h
  (repeat' split at h) <;> cases h

/-- Constants may stand for themselves expanded. -/
theorem Out.conv {xs ys : List OpType} {y : OpType} (hs : ∀ x ∈ xs, x ∈ ys ∨ x.op = Op.push.toByte)
    (h : Out xs y) : Out ys y := by
  refine ⟨?_, ?_⟩
  · rcases h.op with ⟨x, hx, e⟩ | hm
    · rcases hs x hx with h' | h'
      · exact Or.inl ⟨x, h', e⟩
      · exact Or.inr ((made_of_op (e.symm.trans h')).trans rfl)
    · exact Or.inr hm
  · intro hj
    have ⟨x, hx, hxj, e⟩ := h.jump hj
    rcases hs x hx with h' | h'
    · exact ⟨x, h', hxj, e⟩
    · rw [isJump_of_op h' (by decide)] at hxj; cases hxj

theorem Out3.conv {a b c a₁ b₁ c₁ a' b' c' : OpType}
    (hs : ∀ x ∈ [a₁, b₁, c₁], x ∈ [a, b, c] ∨ x.op = Op.push.toByte)
    (hw : wt a₁ + wt b₁ + wt c₁ = wt a + wt b + wt c)
    (h : Out3 a₁ b₁ c₁ a' b' c') : Out3 a b c a' b' c' :=
  ⟨h.fst.conv hs, h.snd.conv hs, h.thd.conv hs, hw ▸ h.less⟩

section
variable {a b c : OpType}
theorem m1 : a ∈ [a, b, c] := List.mem_cons_self ..
theorem m2 : b ∈ [a, b, c] := List.mem_cons_of_mem _ (List.mem_cons_self ..)
theorem m3 : c ∈ [a, b, c] := List.mem_cons_of_mem _ (List.mem_cons_of_mem _ (List.mem_cons_self ..))
end

theorem constLoad_out {a b c a' b' c' : OpType} (ha : a.op = Op.push.toByte)
    (h : constLoad a b c = .rewrite (a', b', c')) : Out3 a b c a' b' c' := by
  have wa : wt a = 3 := wt_of_op ha (by decide)
  unfold constLoad at h
  cases hc : Op.ofByte c.op with
  | none => rw [hc] at h; cases h
  | some o =>
    have ho := ofByte_some hc
    rw [hc] at h
    cases o <;> first
      | (cases h; done)
      | (have wc := wt_of_op (i := c) ho (by decide)
         simp only [wtOp] at wc
         dsimp only at h
         repeat' split at h
         all_goals first
          | (cases h; done)
          | (cases h
             refine ⟨?_, ?_, ?_, ?_⟩
             · first | exact out_nop | exact out_same m2
             · first | exact out_same m2 | exact out_mk (o := .push) rfl rfl
             · first | exact out_nop | exact out_same m3 | exact out_withOp rfl rfl
             · simp only [wt_nop, wt_withOp, wt_mk, wtOp]
               simp
               omega))

theorem addressConst_out {a b c a' b' c' : OpType} (ha : isAddress a = true)
    (hb : b.op = Op.push.toByte) (h : addressConst a b c = .rewrite (a', b', c')) :
    Out3 a b c a' b' c' := by
  have wb : wt b = 3 := wt_of_op hb (by decide)
  have keep : ∀ v, Out [a, b, c] { a with arg2 := v } ∧ wt { a with arg2 := v } = wt a := by
    intro v
    refine ⟨?_, rfl⟩
    unfold isAddress at ha
    cases ho : Op.ofByte a.op with
    | none => rw [ho] at ha; cases ha
    | some o =>
      rw [ho] at ha
      cases o <;> first
        | (cases ha; done)
        | exact out_op m1 (ofByte_some ho) rfl rfl (by decide)
  unfold addressConst at h
  split at h
  · cases h
    exact ⟨(keep _).1, out_nop, out_nop, by rw [(keep _).2, wt_nop]; omega⟩
  · cases h
    exact ⟨(keep _).1, out_nop, out_nop, by rw [(keep _).2, wt_nop]; omega⟩
  · cases h

theorem otherConst_out {a b c a' b' c' : OpType} (hb : b.op = Op.push.toByte)
    (h : otherConst a b c = .rewrite (a', b', c')) : Out3 a b c a' b' c' := by
  have wb : wt b = 3 := wt_of_op hb (by decide)
  unfold otherConst at h
  cases hc : Op.ofByte c.op with
  | none => rw [hc] at h; cases h
  | some o =>
    have ho := ofByte_some hc
    rw [hc] at h
    cases o <;> first
      | (cases h; done)
      | (have wc := wt_of_op (i := c) ho (by decide)
         simp only [wtOp] at wc
         dsimp only at h
         repeat' split at h
         all_goals first
          | (cases h; done)
          | (cases h
             refine ⟨out_same m1, out_nop, ?_, ?_⟩
             · first | exact out_nop | exact out_withOp rfl rfl
             · simp only [wt_nop, wt_withOp, wtOp]
               simp
               omega))

theorem foldConst_none {o : Op} {x y : Word} (hb : isBinary ⟨o.toByte, 0, 0⟩ = true)
    (h : foldConst (some o) x y = .ok none) : o = .udiv := by
  unfold isBinary at hb
  rw [Op.ofByte_toByte] at hb
  unfold foldConst at h
  cases o <;> first
    | (cases hb; done)
    | rfl
    | (dsimp only at h
       repeat' split at h
       all_goals cases h)

theorem foldConst_ub {o : Option Op} {x y : Word} (h : foldConst o x y = .ub) :
    o = some .mul ∨ o = some .umul ∨ o = some .div_ ∨ o = some .mod_ ∨ o = some .umod := by
  cases o with
  | none => cases h
  | some o =>
    cases o <;> first
      | (cases h; done)
      | (simp; done)

theorem foldConst_not_hang {o : Option Op} {x y : Word} : foldConst o x y ≠ .hang := by
  intro h
  cases o with
  | none => cases h
  | some o =>
    unfold foldConst at h
    cases o <;> first
      | (cases h; done)
      | (dsimp only at h
         split at h <;> cases h)

/-- The only rewriting of `binaryRule` that does not make the instructions lighter. -/
def SwapOut (a b c a' b' c' : OpType) : Prop :=
  isPush a = true ∧ isPush b = false ∧ isTransitive c = true ∧ isLoad b = true ∧
    a' = b ∧ b' = expandPush a ∧ c' = c

theorem binaryRule_out {a b c a' b' c' : OpType} (hc0 : c.op ≠ Op.nop.toByte)
    (h : binaryRule a b c = .ok (.rewrite (a', b', c'))) :
    Out3 a b c a' b' c' ∨ SwapOut a b c a' b' c' := by
  have wc := wt_pos hc0
  have ca : isPush a = true → ∀ x ∈ [expandPush a, b, c], x ∈ [a, b, c] ∨ x.op = Op.push.toByte := by
    intro ha x hx
    simp only [List.mem_cons, List.not_mem_nil, or_false] at hx ⊢
    rcases hx with rfl | rfl | rfl
    · exact Or.inr (expandPush_op' ha)
    · simp
    · simp
  have cb : isPush b = true → ∀ x ∈ [a, expandPush b, c], x ∈ [a, b, c] ∨ x.op = Op.push.toByte := by
    intro hb x hx
    simp only [List.mem_cons, List.not_mem_nil, or_false] at hx ⊢
    rcases hx with rfl | rfl | rfl
    · simp
    · exact Or.inr (expandPush_op' hb)
    · simp
  unfold binaryRule at h
  split at h
  · next h1 =>
    simp only [Bool.and_eq_true] at h1
    rw [Res.bind_eq_ok] at h
    obtain ⟨r, hr, h⟩ := h
    cases r with
    | none => cases h
    | some v =>
      cases h
      left
      have wp : wt { expandPush a with arg2 := v } = 3 :=
        wt_of_op (o := .push) (expandPush_op' h1.1.1) (by decide)
      exact ⟨out_made (o := .push) (expandPush_op' h1.1.1) rfl rfl, out_nop, out_nop, by
        rw [wp, wt_nop, wt_push h1.1.1, wt_push h1.1.2]; omega⟩
  · next h1 =>
    split at h
    · next h2 =>
      simp only [Bool.and_eq_true] at h2
      left
      exact (constLoad_out (expandPush_op' h2.1) (Res.ok.inj h)).conv (ca h2.1)
        (by rw [wt_expand h2.1])
    · next h2 =>
      split at h
      · next h3 =>
        simp only [Bool.and_eq_true] at h3
        left
        split at h
        · next h4 =>
          exact (addressConst_out h4 (expandPush_op' h3.1) (Res.ok.inj h)).conv (cb h3.1)
            (by rw [wt_expand h3.1])
        · exact (otherConst_out (expandPush_op' h3.1) (Res.ok.inj h)).conv (cb h3.1)
            (by rw [wt_expand h3.1])
      · next h3 =>
        split at h
        · next h4 =>
          simp only [Bool.and_eq_true] at h4 h3
          have hb : isPush b = false := by
            cases hb : isPush b
            · rfl
            · exact absurd ⟨hb, h4.2⟩ h3
          split at h
          · next h5 =>
            cases h
            exact Or.inr ⟨h4.1.1, hb, h5, h4.1.2, rfl, rfl, rfl⟩
          · split at h
            · cases h
              left
              exact ⟨out_nop, out_same m2, out_nop, by
                rw [wt_nop, wt_push h4.1.1]; omega⟩
            · cases h
        · split at h
          · next h5 =>
            split at h
            · next h6 =>
              cases h
              left
              exact ⟨out_nop, out_withOp rfl rfl, out_same m3, by
                rw [wt_nop, wt_of_op h5 (by decide), wt_of_op h6 (by decide), wt_withOp]
                simp [wtOp]⟩
            · cases h
          · cases h

theorem binaryRule_stuck {a b c : OpType} (h : binaryRule a b c = .ok .stuck) :
    c.op = Op.udiv.toByte := by
  unfold binaryRule at h
  split at h
  · next h1 =>
    simp only [Bool.and_eq_true] at h1
    rw [Res.bind_eq_ok] at h
    obtain ⟨r, hr, h⟩ := h
    cases r with
    | some v => cases h
    | none =>
      have hb := h1.2
      unfold isBinary at hb
      cases ho : Op.ofByte c.op with
      | none => rw [ho] at hb; cases hb
      | some o =>
        rw [ho] at hr hb
        have hb' : isBinary ⟨o.toByte, 0, 0⟩ = true := by
          unfold isBinary; rw [Op.ofByte_toByte]; exact hb
        have := foldConst_none hb' hr
        subst this
        exact ofByte_some ho
  · have nc : ∀ a, constLoad a b c ≠ .stuck := by
      intro a h
      unfold constLoad at h
      dsimp only at h
      (repeat' split at h) <;> cases h
    have na : ∀ b, addressConst a b c ≠ .stuck := by
      intro b h
      unfold addressConst at h
      (repeat' split at h) <;> cases h
    have no : ∀ b, otherConst a b c ≠ .stuck := by
      intro b h
      unfold otherConst at h
      dsimp only at h
      (repeat' split at h) <;> cases h
    split at h
    · exact absurd (Res.ok.inj h) (nc _)
    · split at h
      · split at h
        · exact absurd (Res.ok.inj h) (na _)
        · exact absurd (Res.ok.inj h) (no _)
      · (repeat' split at h) <;> cases h

theorem binaryRule_ub {a b c : OpType} (h : binaryRule a b c = .ub) :
    Op.ofByte c.op = some .mul ∨ Op.ofByte c.op = some .umul ∨ Op.ofByte c.op = some .div_ ∨
      Op.ofByte c.op = some .mod_ ∨ Op.ofByte c.op = some .umod := by
  unfold binaryRule at h
  split at h
  · cases hf : foldConst (Op.ofByte c.op) (expandPush a).arg2 (expandPush b).arg2 with
    | ub => exact foldConst_ub hf
    | hang => exact absurd hf foldConst_not_hang
    | ok r => rw [hf] at h; cases r <;> cases h
  · (repeat' split at h) <;> cases h

theorem binaryRule_not_hang {a b c : OpType} : binaryRule a b c ≠ .hang := by
  intro h
  unfold binaryRule at h
  split at h
  · cases hf : foldConst (Op.ofByte c.op) (expandPush a).arg2 (expandPush b).arg2 with
    | ub => rw [hf] at h; cases h
    | hang => exact absurd hf foldConst_not_hang
    | ok r => rw [hf] at h; cases r <;> cases h
  · (repeat' split at h) <;> cases h

theorem stackOrderRule_out {a b c a' b' c' : OpType} (ha0 : a.op ≠ Op.nop.toByte)
    (hb0 : b.op ≠ Op.nop.toByte)
    (h : stackOrderRule a b c = .rewrite (a', b', c')) : Out3 a b c a' b' c' := by
  have wa := wt_pos ha0
  have wb := wt_pos hb0
  unfold stackOrderRule at h
  split at h
  · next e =>
    have wc := wt_of_op (ofByte_some e) (by decide)
    split at h <;> cases h
    exact ⟨out_same m2, out_same m1, out_nop, by rw [wt_nop, wc]; simp [wtOp]; omega⟩
  · next e =>
    have ho := ofByte_some e
    have keep : ∀ v, Out [a, b, c] { c with arg2 := v } := fun v =>
      out_op m3 ho rfl rfl (by decide)
    have wk : ∀ v, wt { c with arg2 := v } = wt c := fun _ => rfl
    split at h
    · cases h
      exact ⟨out_same m1, out_nop, keep _, by rw [wk, wt_nop]; omega⟩
    · split at h <;> cases h
      exact ⟨out_nop, out_same m2, keep _, by rw [wk, wt_nop]; omega⟩
  · cases h

/-- Two instructions and perhaps a third. -/
def OutOpt (a b : OpType) (c : Option OpType) (a' b' : OpType) (c' : Option OpType) : Prop :=
  match c, c' with
  | some c, some c' => Out3 a b c a' b' c'
  | none, none => Out2 a b a' b'
  | _, _ => False

theorem outOpt_of2 {a b a' b' : OpType} {c : Option OpType} (h : Out2 a b a' b') :
    OutOpt a b c a' b' c := by
  cases c with
  | none => exact h
  | some c =>
    have hs : ∀ x ∈ [a, b], x ∈ [a, b, c] := by
      intro x hx; simp only [List.mem_cons, List.not_mem_nil, or_false] at hx ⊢
      rcases hx with rfl | rfl <;> simp
    exact ⟨mono_out h.fst hs, mono_out h.snd hs, out_same m3, by have := h.less; omega⟩

theorem unindexed_made {o o' : Op} (h : unindexed o = some o') :
    madeOp o' = true ∧ jumpOp o' = false ∧ wtOp o' = 3 ∧ wtOp o = 3 ∧ o ≠ .longop8 := by
  cases o <;> first
    | (cases h; done)
    | (cases h; decide)

theorem loadRule_out {a b a' b' : OpType} {c c' : Option OpType}
    (h : loadRule a b c = .rewrite (a', b', c')) : OutOpt a b c a' b' c' := by
  unfold loadRule at h
  split at h
  · next h1 =>
    split at h <;> cases h
    next h2 =>
    subst h2
    refine outOpt_of2 ⟨out_same (List.mem_cons_self ..), out_mk (o := .dup) rfl rfl, ?_⟩
    have : wt b = 3 := by
      unfold isSimpleLoad at h1
      cases ho : Op.ofByte b.op with
      | none => rw [ho] at h1; cases h1
      | some o =>
        rw [ho] at h1
        cases o <;> first
          | (cases h1; done)
          | exact wt_of_op (ofByte_some ho) (by decide)
    rw [this, wt_mk]; simp [wtOp]
  · split at h
    · next h1 =>
      have wa := wt_push h1
      dsimp only at h
      split at h
      · next o ho =>
        cases h
        obtain ⟨o₀, e0, e1⟩ := Option.bind_eq_some_iff.mp ho
        obtain ⟨u1, u2, u3, u4, u5⟩ := unindexed_made e1
        have u6 : o ≠ .longop8 := by rintro rfl; cases u1
        refine outOpt_of2 ⟨out_nop, out_made (o := o) rfl u1 u2, ?_⟩
        rw [wt_nop, wa, wt_of_op (i := b) (ofByte_some e0) u5,
          wt_of_op (i := { withOp b o with arg2 := b.arg2 + (expandPush a).arg2 }) (o := o) rfl u6]
        omega
      · split at h
        · next c =>
          split at h
          · split at h
            · next h2 =>
              cases h
              show Out3 a b c nop b { withOp c .ldm with arg2 := c.arg2 + (expandPush a).arg2 }
              refine ⟨out_nop, out_same m2, out_made (o := .ldm) rfl rfl rfl, ?_⟩
              rw [wt_nop, wa, wt_of_op (i := c) h2 (by decide), wt_of_op (i := { withOp c .ldm with arg2 := c.arg2 + (expandPush a).arg2 }) (o := .ldm) rfl (by decide)]
              simp [wtOp]
            · split at h
              · next h2 =>
                cases h
                show Out3 a b c nop b { withOp c .ldsm with arg2 := c.arg2 + (expandPush a).arg2 }
                refine ⟨out_nop, out_same m2, out_made (o := .ldsm) rfl rfl rfl, ?_⟩
                rw [wt_nop, wa, wt_of_op (i := c) h2 (by decide),
                  wt_of_op (i := { withOp c .ldsm with arg2 := c.arg2 + (expandPush a).arg2 }) (o := .ldsm) rfl (by decide)]
                simp [wtOp]
              · cases h
          · cases h
        · cases h
    · cases h

theorem loadRule_not_stuck (a b : OpType) (c : Option OpType) : loadRule a b c ≠ .stuck := by
  intro h
  unfold loadRule at h
  dsimp only at h
  (repeat' split at h) <;> cases h

theorem loadOf_made {o o' : Op} (h : loadOf o = some o') :
    madeOp o = true ∧ jumpOp o = false ∧ wtOp o' = 3 ∧ wtOp o = 3 ∧ o ≠ .longop8 ∧
      o' ≠ .longop8 := by
  cases o <;> first
    | (cases h; done)
    | (cases h; decide)

theorem storeRule_out {a b a' b' : OpType} {c c' : Option OpType}
    (h : storeRule a b c = .rewrite (a', b', c')) : OutOpt a b c a' b' c' := by
  unfold storeRule at h
  split at h
  · next l hl =>
    split at h <;> cases h
    next h2 =>
    obtain ⟨o₀, e0, e1⟩ := Option.bind_eq_some_iff.mp hl
    obtain ⟨u1, u2, u3, u4, u5, u6⟩ := loadOf_made e1
    have ea := ofByte_some e0
    refine outOpt_of2 ⟨out_mk (o := .dup) rfl rfl, out_made (o := o₀) ea u1 u2, ?_⟩
    rw [wt_of_op ea u5, wt_of_op h2.2.2 u6, wt_of_op (i := { b with op := a.op }) ea u5, wt_mk, u3, u4]
    simp [wtOp]
  · split at h
    · cases h
    · next c =>
      have go : ∀ (o o' : Op) (v : Word), wt a = 3 → c.op = o.toByte → wtOp o = 3 → wtOp o' = 3 →
          o ≠ .longop8 → madeOp o' = true → jumpOp o' = false →
          Out3 a b c nop b { withOp c o' with arg2 := v } := by
        intro o o' v wa hc w1 w2 n1 hm hj
        have n2 : o' ≠ .longop8 := by rintro rfl; cases hm
        refine ⟨out_nop, out_same m2, out_made (o := o') rfl hm hj, ?_⟩
        rw [wt_nop, wa, wt_of_op hc n1,
          wt_of_op (i := { withOp c o' with arg2 := v }) (o := o') rfl n2]
        omega
      split at h
      · next h1 =>
        have wa : wt a = 3 := wt_of_op h1 (by decide)
        split at h
        · next h2 => cases h; exact go .stsx .sts _ wa h2 rfl rfl (by decide) rfl rfl
        · split at h
          · next h2 => cases h; exact go .stsxb .stsb _ wa h2 rfl rfl (by decide) rfl rfl
          · cases h
      · split at h
        · next h1 =>
          split at h
          · next h2 => cases h; exact go .stsxb .stsb _ (wt_push h1) h2 rfl rfl (by decide) rfl rfl
          · cases h
        · cases h

theorem storeRule_not_stuck (a b : OpType) (c : Option OpType) : storeRule a b c ≠ .stuck := by
  intro h
  unfold storeRule at h
  (repeat' split at h) <;> cases h

theorem stackOrderRule_not_stuck (a b c : OpType) : stackOrderRule a b c ≠ .stuck := by
  intro h
  unfold stackOrderRule at h
  (repeat' split at h) <;> cases h

end Pas.Popt
