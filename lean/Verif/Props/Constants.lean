import Verif.Lemmas.ConstSet
import Verif.Props.Compile

/-! Properties of constant expressions (C47) and set constants (C58). -/
namespace Pas.Src
open Pas.Spec Pas.Comp
open Pas.KL
open Pas.Const (KS KK constExpr constFactor declareConst constToken)

/-- The tokens end a constant expression. -/
def EndsConst (rest : List Tk) : Prop := Ends rest

/-- C47 (partial: integer, character and Boolean constants without comparisons, parentheses, `~`,
`&`, `|`, XOR and integer OR, which are wrong or rejected, see the violations): for every constant
declaration `name = expression` whose value can be computed without leaving 32 bits, the compiler
accepts it and gives the name exactly that value. -/
theorem C47_value_partial (e : K .simple) (v : Val) (rest : List Tk) (s : KS)
    (value : e.exact 32 = some v) (noOr : e.NoIntegerOr) (ends : EndsConst rest)
    (toks : s.toks = .ident :: .eq :: (e.toks ++ rest)) :
    ∃ N t, ∀ n, N ≤ n → declareConst n s = some (some (v.constKind, v.constBits), t) ∧
      t.toks = rest ∧ t.errs = s.errs ∧ t.ub = s.ub :=
  declareConst_value e v rest s value noOr ends toks

/-- C47 (partial, as above): a constant expression whose value can be
computed without leaving 16 bits has, as a constant, the value that the code of the same expression
in a statement pushes. -/
theorem C47_run_time_partial (e : K .simple) (f : E .simple) (same : e.asExpr = some f)
    (v : Val) (value : e.exact 16 = some v) (noOr : e.NoIntegerOr)
    (rest : List Tk) (ends : EndsConst rest)
    (s : KS) (toks : s.toks = .ident :: .eq :: (e.toks ++ rest))
    (g : Cfg) (lib : Lib) (Γ : Env) (hΓ : Γ.Ok) (hg : g.level = Γ.level)
    (cs : CS) (ctoks : cs.toks = e.toks ++ rest) :
    (∃ N t, ∀ n, N ≤ n → declareConst n s = some (some (v.constKind, v.constBits), t) ∧
      t.errs = s.errs ∧ t.ub = s.ub) ∧
    v.constBits.setWidth 16 = v.word ∧
    ∃ (N : Nat) (c : List OpType),
      (∀ n, N ≤ n → expression g n .unknown cs = some (v.ty.et, { cs with
        toks := rest
        out := cs.out ++ c })) ∧
      ∀ (σ : Store) (m : VM) (b : Nat) (addr : Nat → Word) (p : List OpType) (k : Nat),
        Γ.In m b → Γ.Holds m.mem σ → b ≤ m.sp.toNat / 2 → RoomFor m e.toks.length → At p k c →
        ∃ t, PSteps lib addr p (k, m) (k + c.length, t) ∧ Pushed m e.toks.length v.word t := by
  obtain ⟨h1, h2, h3⟩ := asExpr_ok e same value
  obtain ⟨h4, h5⟩ := h3 .any ⟨by simp, by simp⟩
  have h32 := exact_16 e value
  refine ⟨?_, ?_, ?_⟩
  · obtain ⟨N, t, hN⟩ := C47_value_partial e v rest s h32.1 noOr ends toks
    exact ⟨N, t, fun n hn => ⟨(hN n hn).1, (hN n hn).2.2⟩⟩
  · cases v with
    | num t i =>
      simp only [Val.constBits, Val.word]
      apply BitVec.eq_of_toNat_eq
      simp [BitVec.toNat_ofInt]
      omega
    | bool b => cases b <;> rfl
    | char c =>
      have key : ∀ c : Byte, (c.zeroExtend 32).setWidth 16 = c.zeroExtend 16 := by decide +kernel
      exact key c
  · have htoks : (E.simple f).toks = e.toks := h1
    obtain ⟨N, c, hc, hrun⟩ := C48_expression_partial g lib Γ hΓ hg (.simple f) .any v.ty rest cs
      (by simp [E.typeOf, h4]) (by simp [E.vars, h2]) (by rw [htoks]; exact ctoks) ends
    refine ⟨N, c, hc, ?_⟩
    intro σ m b addr p k hi hh hb hr hat
    rw [htoks] at hrun
    obtain ⟨_, t, ht1, ht2, _⟩ := hrun σ v m b addr p k (h5 σ) hi hh hb hr hat
    exact ⟨t, ht1, ht2⟩

/-- C47: where the name of a constant that is not negative is used, the compiler reads the token of
its value written out. -/
theorem C47_name (v : Val) (h : ∀ t i, v = .num t i → 0 ≤ i) :
    ∃ f : E .factor, (constToken v.constKind v.constBits).map (fun t => [t]) = some f.toks ∧
      match v with
      | .num _ i => f = .int i.toNat
      | .bool b => f = .bool b
      | .char c => f = .char c := by
  cases v with
  | num t i =>
    refine ⟨.int i.toNat, ?_, rfl⟩
    have := h t i rfl
    simp only [constToken, Val.constKind, Val.constBits, Option.map_some, E.toks]
    rw [← BitVec.ofInt_natCast, show ((i.toNat : Nat) : Int) = i from by omega]
  | bool b => exact ⟨.bool b, rfl, rfl⟩
  | char c => exact ⟨.char c, rfl, rfl⟩

/-! ### Concrete cases -/

/-- `-7 div 2 + abs(3 - 10) * 5 mod 4` -/
def exConst : K .simple :=
  .add (.term (some .minus) (.mul (.factor (.int 7)) .div (.int 2))) .add
    (.mul (.mul (.factor (.fn .abs (.add (.term none (.factor (.int 3))) .sub (.factor (.int 10)))))
      .mul (.int 5)) .mod (.int 4))

/-- The hypotheses of `C47_value_partial` are met: the value is 0 = -3 + 35 mod 4. -/
example : exConst.exact 32 = some (.num .integer 0) ∧ exConst.NoIntegerOr ∧ EndsConst [.semi] ∧
    exConst.toks.length = 15 := by
  refine ⟨by decide, by simp [exConst, K.NoIntegerOr], ?_, by decide⟩
  · intro t h; cases h; decide

/-- `17 shl 3 - 40 div 7 and not 1` -/
def exConst2 : K .simple :=
  .add (.term none (.mul (.factor (.int 17)) .shl (.int 3))) .sub
    (.mul (.mul (.factor (.int 40)) .div (.int 7)) .and (.not (.int 1)))

/-- The hypotheses of `C47_run_time_partial` are met: the value is 136 - 4 = 132. -/
example : exConst2.exact 16 = some (.num .integer 132) ∧ (∃ f, exConst2.asExpr = some f) ∧
    exConst2.NoIntegerOr ∧ exEnv.Ok ∧ exEnv.In exState 29 ∧ exEnv.Holds exState.mem exStore ∧
    RoomFor exState exConst2.toks.length ∧ 29 ≤ exState.sp.toNat / 2 := by
  refine ⟨by decide, ⟨_, rfl⟩, by simp [exConst2, K.NoIntegerOr],
    exEnv_ok, exEnv_in, exEnv_holds, ⟨by decide, by decide⟩, by decide⟩

/-- They are also met by `succ(abs(-3) * sqr(5)) - ord('A')`, with the value 76 - 65 = 11. -/
def exConst3 : K .simple :=
  .add (.term none (.factor (.fn .succ (.term none (.mul
      (.factor (.fn .abs (.term (some .minus) (.factor (.int 3))))) .mul
      (.fn .sqr (.term none (.factor (.int 5)))))))))
    .sub (.factor (.fn .ord (.term none (.factor (.char 65#8)))))

example : exConst3.exact 16 = some (.num .integer 11) ∧ (∃ f, exConst3.asExpr = some f) ∧
    exConst3.NoIntegerOr ∧ RoomFor exState exConst3.toks.length :=
  ⟨by decide, ⟨_, rfl⟩, by simp [exConst3, K.NoIntegerOr], ⟨by decide, by decide⟩⟩

/-! ### Violations -/

/-- The state with the tokens of a declaration. -/
def kstart (ts : List Tk) : KS := ⟨ts, 0, false, .none_, 0#32, [0#16, 0#16, 0#16, 0#16]⟩

/-- What is declared, the number of errors and whether the behaviour of the compiler is undefined. -/
def constOf (ts : List Tk) : Option (Option (KK × BitVec 32) × Nat × Bool) :=
  (declareConst 30 (kstart (.ident :: .eq :: ts))).map fun r => (r.1, r.2.errs, r.2.ub)

/-- Violation of C47: no comparison is accepted in a constant expression: after the first operand
the relational operator is read as the second operand, for every first operand, operator and
second operand. -/
theorem C47_violation_comparison (a : K .simple) (v : Val) (value : a.exact 32 = some v)
    (noOr : a.NoIntegerOr) (op : RelOp) (b : List Tk) (s : KS)
    (toks : s.toks = a.toks ++ op.tk :: b) :
    ∃ N t, ∀ n, N ≤ n → ∀ min, constExpr n min s = some t ∧ t.errs = s.errs + 1 ∧
      t.toks = op.tk :: b := by
  obtain ⟨_, N, hN⟩ := simple_end (parsesK a) (s := s) (rest := op.tk :: b) value noOr toks (by
    intro t kk h; cases h; cases op <;> exact ⟨rfl, rfl⟩)
  have h2 : ∀ n, 4 ≤ n → ∀ min, Pas.Const.constSimple n min (go s (op.tk :: b) v) =
      some (go s (op.tk :: b) v).err := by
    intro n hn min
    obtain ⟨n, rfl⟩ : ∃ k, n = k + 4 := ⟨n - 4, by omega⟩
    have hf : Pas.Const.constFactor (n + 2) min (go s (op.tk :: b) v) =
        some (go s (op.tk :: b) v).err := by
      rw [Pas.Const.constFactor, go_tok]
      cases op <;> rfl
    have ht : Pas.Const.constTerm (n + 3) min (go s (op.tk :: b) v) =
        some (go s (op.tk :: b) v).err := by
      rw [Pas.Const.constTerm, hf]
      simp only [Option.bind_eq_bind, Option.bind_some]
      rw [Pas.Const.termLoop, if_neg (by cases op <;> simp [KS.err, KS.tok, go, RelOp.tk, Pas.Const.mulAllowed])]
    rw [Pas.Const.constSimple]
    have e1 : (go s (op.tk :: b) v).tok ≠ .plus := by rw [go_tok]; cases op <;> simp [RelOp.tk]
    have e2 : (go s (op.tk :: b) v).tok ≠ .minus := by rw [go_tok]; cases op <;> simp [RelOp.tk]
    simp only [e1, e2, or_self, decide_false, Bool.false_eq_true, if_false, ht,
      Option.bind_eq_bind, Option.bind_some, false_and]
    rw [Pas.Const.simpleLoop, if_neg (by cases op <;> simp [KS.err, KS.tok, go, RelOp.tk, Pas.Const.addAllowed])]
  obtain ⟨w, hw⟩ : ∃ w, Pas.Const.relOp op.tk v.constKind v.constBits v.constBits s.set s.set =
      some w := by
    cases v <;> cases op <;> exact ⟨_, rfl⟩
  refine ⟨N + 5, { (go s (op.tk :: b) v).err with kind := .bool, int := w }, fun n hn min => ?_⟩
  obtain ⟨n, rfl⟩ : ∃ k, n = k + 1 := ⟨n - 1, by omega⟩
  refine ⟨?_, rfl, rfl⟩
  rw [constExpr, hN n (by omega)]
  simp only [Option.bind_eq_bind, Option.bind_some]
  rw [if_pos (by cases v <;> cases op <;> rfl), h2 n (by omega)]
  simp only [Option.bind_some, go_tok]
  rw [if_neg (by simp [KS.err])]
  have : Pas.Const.relOp op.tk (go s (op.tk :: b) v).kind (go s (op.tk :: b) v).int
      (go s (op.tk :: b) v).err.int (go s (op.tk :: b) v).set (go s (op.tk :: b) v).err.set =
      some w := hw
  rw [this]
  rfl

/-- Violation of C47: parentheses are not accepted: `const c = (1 + 2) * 3`. -/
theorem C47_violation_parentheses :
    (constOf [.lparen, .int 1#32, .plus, .int 2#32, .rparen, .mul, .int 3#32, .semi]).map (·.2.1)
      = some 2 := by
  decide +kernel

/-- Violation of C47: `const c = 12 or 3` is accepted and is 12 - 3 = 9, not 15. -/
theorem C47_violation_or :
    constOf [.int 12#32, .or_, .int 3#32, .semi] = some (some (.int, 9#32), 0, false) := by
  decide +kernel

/-- Violation of C47: `const c = 30000 + 30000` is 60000, but the value at run time is -5536. -/
theorem C47_violation_overflow :
    constOf [.int 30000#32, .plus, .int 30000#32, .semi] = some (some (.int, 60000#32), 0, false) ∧
    ∀ σ, (E.add (.term none (.factor (.int 30000))) .add (.factor (.int 30000))).eval σ .any =
      some (.num .integer (-5536)) := by
  refine ⟨by decide +kernel, fun σ => by rfl⟩

/-- Violation of C47: a division by zero in a constant expression makes the compiler itself divide by
zero. -/
theorem C47_violation_zero :
    (constOf [.int 1#32, .div_, .int 0#32, .semi]).map (·.2.2) = some true := by
  decide +kernel

/-- Violation of C47: `const c = succ(false)` is the Boolean constant 1, which is neither FALSE (0) nor
TRUE (-1): `c = true` is FALSE. -/
theorem C47_violation_succ :
    constOf [.other 0xc010, .lparen, .bool 0#32, .rparen, .semi] =
      some (some (.bool, 1#32), 0, false) := by
  decide +kernel

/-- Violation of C47: a negative constant cannot be used by its name: after `const c = -5` the name
stands for the token 4294967291, a long integer, so that `x := c` is an error for an integer
variable `x` (while `x := -5` is accepted). -/
theorem C47_violation_negative (g : Cfg) (hg : g.level = 1) :
    constOf [.minus, .int 5#32, .semi] = some (some (.int, 0xfffffffb#32), 0, false) ∧
    ((expression g 10 .integer (start [.int 0xfffffffb#32, .semi])).map (·.2.errs) = some 1) ∧
    ((expression g 10 .integer (start [.minus, .int 5#32, .semi])).map (·.2.errs) = some 0) := by
  obtain ⟨l, f⟩ := g
  cases hg
  exact ⟨by decide +kernel, rfl, rfl⟩

/-! ### Set constants -/

/-- C58 (partial: sets of numbers; items that are correct on their own, `SetItem.Good`, and no range
in a word of the set that an earlier item uses, since a range overwrites its words): a set constant
of a type with the smallest value `min` contains exactly the listed elements. -/
theorem C58_set_constant_partial (min : Nat) (items : List SetItem) (rest : List Tk) (s : KS)
    (good : ∀ i ∈ items, i.Good min)
    (apart : items.Pairwise (fun i j => j.isRange → i.Apart min j))
    (toks : s.toks = setToks items ++ rest) :
    ∃ N t, ∀ n, N ≤ n → constFactor n (BitVec.ofNat 16 min) s = some t ∧
      t.toks = rest ∧ t.errs = s.errs ∧ t.ub = s.ub ∧ t.kind = .set ∧ t.set.length = 4 ∧
      ∀ e, SetBit t.set min e ↔ ∃ i ∈ items, i.Has e := by
  obtain ⟨t, h1, h2, h3⟩ := set_ok items s toks good apart
  refine ⟨items.length + 2, { s with toks := rest, kind := .set, set := t }, fun n hn =>
    ⟨h1 n (by omega), rfl, rfl, rfl, rfl, h2, fun e => ?_⟩⟩
  have hb : SetBit t min e ↔ min ≤ e ∧ Bit4 t (e - min) := Iff.rfl
  show SetBit t min e ↔ _
  rw [hb, h3]
  constructor
  · rintro ⟨h, i, hi, _, hh⟩
    rw [show min + (e - min) = e from by omega] at hh
    exact ⟨i, hi, hh⟩
  · rintro ⟨i, hi, hh⟩
    obtain ⟨g1, g2, g3, g4, _⟩ := good i hi
    have : min ≤ e ∧ e < 65536 := by
      cases i with
      | one x =>
        have : e = x := hh
        simp only [SetItem.first, SetItem.last] at *
        omega
      | range a b =>
        obtain ⟨_, _⟩ := hh
        simp only [SetItem.first, SetItem.last] at *
        omega
    refine ⟨this.1, i, hi, by omega, ?_⟩
    rw [show min + (e - min) = e from by omega]
    exact hh

/-- `[2..40, 60, 50]`: the hypotheses of `C58_set_constant_partial` are met. -/
example : (∀ i ∈ [SetItem.range 2 40, .one 60, .one 50], i.Good 0) ∧
    [SetItem.range 2 40, .one 60, .one 50].Pairwise (fun i j => j.isRange → i.Apart 0 j) := by
  simp [SetItem.Good, SetItem.first, SetItem.last, SetItem.isRange]

/-- The words of a set constant, or whether the behaviour of the compiler is undefined. -/
def setConst (ts : List Tk) : Option (List Word × Nat × Bool) :=
  (constExpr 30 0#16 (kstart ts)).map fun s => (s.set, s.errs, s.ub)

/-- Violation of C58: `[1, 4..5]` does not contain 1. -/
theorem C58_violation_overwritten :
    setConst (setToks [.one 1, .range 4 5] ++ [.semi]) =
      some ([0x0030#16, 0#16, 0#16, 0#16], 0, false) := by
  decide +kernel

/-- Violation of C58: `[20..40]` contains 41 and 60 (words: 20..31, 32..47, 48..56). -/
theorem C58_violation_range :
    setConst (setToks [.range 20 40] ++ [.semi]) =
      some ([0#16, 0xfff0#16, 0xffff#16, 0x01ff#16], 0, false) := by
  decide +kernel

/-- Violation of C58: the compiler stores outside of the set when it translates `[10..27]`. -/
theorem C58_violation_outside :
    (setConst (setToks [.range 10 27] ++ [.semi])).map (·.2.2) = some true := by
  decide +kernel

/-- Violation of C58: `[1, 2] - [2, 3]` is `[3]`, not `[1]`. -/
theorem C58_violation_difference :
    setConst (setToks [.one 1, .one 2] ++ .minus :: setToks [.one 2, .one 3] ++ [.semi]) =
      some ([0x0008#16, 0#16, 0#16, 0#16], 0, false) := by
  decide +kernel

/-- Violation of C58: `[1] + [2] + [3]` does not contain 2. -/
theorem C58_violation_union :
    setConst (setToks [.one 1] ++ .plus :: setToks [.one 2] ++ .plus :: setToks [.one 3] ++
      [.semi]) = some ([0x000a#16, 0#16, 0#16, 0#16], 0, false) := by
  decide +kernel

/-- Violation of C58: the intersection `[1] * [1]` is an error. -/
theorem C58_violation_intersection :
    (setConst (setToks [.one 1] ++ .mul :: setToks [.one 1] ++ [.semi])).map (·.2.1) = some 1 := by
  decide +kernel

end Pas.Src
