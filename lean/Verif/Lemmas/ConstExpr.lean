import Verif.Spec.Constants

/-! Lemmas about constant expressions. -/
namespace Pas.KL
open Pas.Src
open Pas.Comp (Tk)
open Pas.Const

/-- The state after a constant has been read. -/
def go (s : KS) (r : List Tk) (v : Val) : KS :=
  { s with
    toks := r
    kind := v.constKind
    int := v.constBits }

/-- The value is an integer of 32 bits, if it is an integer. -/
def InR : Val → Prop
  | .num t i => t = .integer ∧ -2147483648 ≤ i ∧ i < 2147483648
  | _ => True

theorem fit_some {i : Int} {v : Val} (h : fit 32 i = some v) :
    v = .num .integer i ∧ -2147483648 ≤ i ∧ i < 2147483648 := by
  unfold fit at h
  split at h
  · rename_i hc
    cases h
    simp at hc
    exact ⟨rfl, hc⟩
  · cases h

theorem fit_inR {i : Int} {v : Val} (h : fit 32 i = some v) : InR v := by
  obtain ⟨rfl, hv⟩ := fit_some h
  exact ⟨rfl, hv⟩

theorem arith_ok {i : Int} (h : -2147483648 ≤ i ∧ i < 2147483648) :
    arith i = (BitVec.ofInt 32 i, false) := by
  simp only [arith, Prod.mk.injEq, true_and, decide_eq_false_iff_not]
  omega

theorem toInt_ok {i : Int} (h : -2147483648 ≤ i ∧ i < 2147483648) :
    (BitVec.ofInt 32 i).toInt = i := by
  rw [BitVec.toInt_ofInt]
  exact Int.bmod_eq_of_le (by omega) (by omega)

theorem ofInt_zero {i : Int} (h : -2147483648 ≤ i ∧ i < 2147483648)
    (h0 : BitVec.ofInt 32 i = 0) : i = 0 := by
  have := toInt_ok h
  rw [h0] at this
  simpa using this.symm

theorem undef_false (s : KS) : s.undef false = s := by
  simp [KS.undef]

theorem mul_ok {op : MulOp} {a b v : Val} (h : mulExact 32 op a b = some v) (ha : InR a)
    (hb : InR b) : mulAllowed op.tk a.constKind = true ∧ b.constKind = a.constKind ∧
      mulOp op.tk a.constKind a.constBits b.constBits = (v.constBits, false, false) ∧
      v.constKind = a.constKind ∧ InR v := by
  cases a with
  | num t a =>
    cases b with
    | num t' b =>
      obtain ⟨rfl, ha⟩ := ha
      obtain ⟨rfl, hb⟩ := hb
      cases op with
      | mul =>
        obtain ⟨rfl, hv⟩ := fit_some h
        refine ⟨rfl, rfl, ?_, rfl, rfl, hv⟩
        simp [MulOp.tk, mulOp, Val.constKind, Val.constBits, toInt_ok ha, toInt_ok hb, arith_ok hv]
      | div =>
        simp only [mulExact] at h
        split at h
        · cases h
        rename_i hz
        obtain ⟨rfl, hv⟩ := fit_some h
        refine ⟨rfl, rfl, ?_, rfl, rfl, hv⟩
        have : ¬ BitVec.ofInt 32 b = 0 := fun h => hz (ofInt_zero hb h)
        simp only [MulOp.tk, mulOp, Val.constKind, Val.constBits, toInt_ok ha, toInt_ok hb,
          arith_ok hv, this]
        simp
      | mod =>
        simp only [mulExact] at h
        split at h
        · cases h
        rename_i hz
        have hz1 : b ≠ 0 := fun h => hz (.inl h)
        have hd : ∃ w, fit 32 (a.tdiv b) = some w := by
          cases hf : fit 32 (a.tdiv b) with
          | none => exact absurd (.inr hf) hz
          | some w => exact ⟨w, rfl⟩
        obtain ⟨w, hw⟩ := hd
        obtain ⟨_, hw⟩ := fit_some hw
        obtain ⟨rfl, hv⟩ := fit_some h
        refine ⟨rfl, rfl, ?_, rfl, rfl, hv⟩
        have : ¬ BitVec.ofInt 32 b = 0 := fun h => hz1 (ofInt_zero hb h)
        simp only [MulOp.tk, mulOp, Val.constKind, Val.constBits, toInt_ok ha, toInt_ok hb,
          arith_ok hv, arith_ok hw, this]
        simp
      | and =>
        obtain ⟨rfl, hv⟩ := fit_some h
        refine ⟨rfl, rfl, ?_, rfl, rfl, hv⟩
        simp only [MulOp.tk, mulOp, Val.constKind, Val.constBits, BitVec.ofInt_toInt]
        rfl
      | shl =>
        simp only [mulExact] at h
        split at h
        · rename_i hc
          obtain ⟨rfl, hv⟩ := fit_some h
          refine ⟨rfl, rfl, ?_, rfl, rfl, hv⟩
          have h1 : ¬ (b < 0 ∨ 31 < b) := by omega
          have h2 : (BitVec.ofInt 32 b).toNat = b.toNat := by
            rw [BitVec.toNat_ofInt]; omega
          simp [MulOp.tk, mulOp, Val.constKind, Val.constBits, toInt_ok ha, toInt_ok hb, h1, h2,
            -BitVec.toNat_ofInt]
        · cases h
      | shr =>
        simp only [mulExact] at h
        split at h
        · rename_i hc
          obtain ⟨rfl, hv⟩ := fit_some h
          refine ⟨rfl, rfl, ?_, rfl, rfl, hv⟩
          have h1 : ¬ (b < 0 ∨ 31 < b) := by omega
          have h2 : (BitVec.ofInt 32 b).toNat = b.toNat := by
            rw [BitVec.toNat_ofInt]; omega
          simp [MulOp.tk, mulOp, Val.constKind, Val.constBits, toInt_ok ha, toInt_ok hb, h1, h2,
            -BitVec.toNat_ofInt]
        · cases h
      | amp => cases h
    | _ => cases op <;> cases h
  | bool a =>
    cases b with
    | bool b =>
      cases op with
      | and =>
        cases h
        refine ⟨rfl, rfl, ?_, rfl, trivial⟩
        cases a <;> cases b <;> rfl
      | _ => cases h
    | _ => cases op <;> cases h
  | char _ => cases op <;> cases h

theorem add_ok {op : AddOp} {a b v : Val} (h : addExact 32 op a b = some v) (ha : InR a)
    (hb : InR b) (hor : op = .or → ∃ x, a = .bool x) :
    addAllowed op.tk a.constKind = true ∧ b.constKind = a.constKind ∧
      (∀ s st, s.int = b.constBits →
        addOp op.tk a.constKind a.constBits st s = (v.constBits, s)) ∧
      v.constKind = a.constKind ∧ InR v := by
  cases a with
  | num t a =>
    cases b with
    | num t' b =>
      obtain ⟨rfl, ha⟩ := ha
      obtain ⟨rfl, hb⟩ := hb
      cases op with
      | add =>
        obtain ⟨rfl, hv⟩ := fit_some h
        refine ⟨rfl, rfl, ?_, rfl, rfl, hv⟩
        intro s st hs
        simp [AddOp.tk, addOp, Val.constKind, Val.constBits, hs, toInt_ok ha, toInt_ok hb,
          arith_ok hv, undef_false]
      | sub =>
        obtain ⟨rfl, hv⟩ := fit_some h
        refine ⟨rfl, rfl, ?_, rfl, rfl, hv⟩
        intro s st hs
        simp [AddOp.tk, addOp, Val.constKind, Val.constBits, hs, toInt_ok ha, toInt_ok hb,
          arith_ok hv, undef_false]
      | or => obtain ⟨x, hx⟩ := hor rfl; cases hx
      | bar => cases h
      | xor => cases h
    | _ => cases op <;> cases h
  | bool a =>
    cases b with
    | bool b =>
      cases op with
      | or =>
        cases h
        refine ⟨rfl, rfl, ?_, rfl, trivial⟩
        intro s st hs
        simp only [addOp, Val.constKind, hs]
        cases a <;> cases b <;> rfl
      | _ => cases h
    | _ => cases op <;> cases h
  | char _ => cases op <;> cases h

theorem fn_ok {f : KFn} {a v : Val} (h : f.exact 32 a = some v) (ha : InR a) :
    (∃ c ∈ stdCodes, f.fn.tk = .other c ∧ stdCodes.find? (fun c => f.fn.tk = .other c) = some c ∧
      ∀ s r, stdFunc c (go s r a) = go s r v) ∧ InR v := by
  cases f with
  | abs =>
    cases a with
    | num t a =>
      obtain ⟨rfl, ha⟩ := ha
      obtain ⟨rfl, hv⟩ := fit_some h
      refine ⟨⟨0xc001, by decide, rfl, by decide, ?_⟩, rfl, hv⟩
      intro s r
      by_cases hn : a < 0
      · have e : (a.natAbs : Int) = -a := by omega
        rw [e] at hv ⊢
        simp [stdFunc, go, Val.constKind, Val.constBits, toInt_ok ha, hn, arith_ok hv, undef_false]
      · have e : (a.natAbs : Int) = a := by omega
        rw [e]
        simp [stdFunc, go, Val.constKind, Val.constBits, toInt_ok ha, hn]
    | _ => cases h
  | sqr =>
    cases a with
    | num t a =>
      obtain ⟨rfl, ha⟩ := ha
      obtain ⟨rfl, hv⟩ := fit_some h
      refine ⟨⟨0xc00e, by decide, rfl, by decide, ?_⟩, rfl, hv⟩
      intro s r
      simp [stdFunc, go, Val.constKind, Val.constBits, toInt_ok ha, arith_ok hv, undef_false]
    | _ => cases h
  | pred =>
    refine ⟨⟨0xc00b, by decide, rfl, by decide, ?_⟩, ?_⟩
    · intro s r
      cases a with
      | num t a =>
        obtain ⟨rfl, ha⟩ := ha
        obtain ⟨rfl, hv⟩ := fit_some h
        simp [stdFunc, go, Val.constKind, Val.constBits, toInt_ok ha, arith_ok hv, undef_false]
      | char c =>
        simp only [KFn.exact] at h
        split at h
        · cases h
        rename_i hc
        cases h
        have key : ∀ c : Byte, c ≠ 0#8 → arith ((c.zeroExtend 32).toInt - 1) =
            ((c - 1#8).zeroExtend 32, false) := by decide +kernel
        have e : stdFunc 0xc00b (go s r (.char c)) =
            KS.undef { go s r (.char c) with int := (arith ((c.zeroExtend 32).toInt - 1)).1 }
              (arith ((c.zeroExtend 32).toInt - 1)).2 := rfl
        rw [e, key c hc, undef_false]
        rfl
      | bool => cases h
    · cases a with
      | num t a => exact fit_inR h
      | char c =>
        simp only [KFn.exact] at h
        split at h
        · cases h
        · cases h; trivial
      | bool => cases h
  | succ =>
    refine ⟨⟨0xc010, by decide, rfl, by decide, ?_⟩, ?_⟩
    · intro s r
      cases a with
      | num t a =>
        obtain ⟨rfl, ha⟩ := ha
        obtain ⟨rfl, hv⟩ := fit_some h
        simp [stdFunc, go, Val.constKind, Val.constBits, toInt_ok ha, arith_ok hv, undef_false]
      | char c =>
        simp only [KFn.exact] at h
        split at h
        · cases h
        rename_i hc
        cases h
        have key : ∀ c : Byte, c ≠ 255#8 → arith ((c.zeroExtend 32).toInt + 1) =
            ((c + 1#8).zeroExtend 32, false) := by decide +kernel
        have e : stdFunc 0xc010 (go s r (.char c)) =
            KS.undef { go s r (.char c) with int := (arith ((c.zeroExtend 32).toInt + 1)).1 }
              (arith ((c.zeroExtend 32).toInt + 1)).2 := rfl
        rw [e, key c hc, undef_false]
        rfl
      | bool => cases h
    · cases a with
      | num t a => exact fit_inR h
      | char c =>
        simp only [KFn.exact] at h
        split at h
        · cases h
        · cases h; trivial
      | bool => cases h
  | ord =>
    refine ⟨⟨0xc00a, by decide, rfl, by decide, ?_⟩, ?_⟩
    · intro s r
      cases a with
      | num t a =>
        obtain ⟨rfl, ha⟩ := ha
        cases h
        simp [stdFunc, go, Val.constKind, Val.constBits]
      | char c =>
        obtain ⟨rfl, _⟩ := fit_some h
        have key : ∀ c : Byte, BitVec.ofInt 32 (c.toNat : Int) = c.zeroExtend 32 := by
          decide +kernel
        simp [stdFunc, go, Val.constKind, Val.constBits, key]
      | bool b =>
        cases b with
        | true => cases h
        | false =>
          obtain ⟨rfl, _⟩ := fit_some h
          simp [stdFunc, go, Val.constKind, Val.constBits]
    · cases a with
      | num t a => cases h; exact ⟨rfl, ha.2⟩
      | char c => exact fit_inR h
      | bool b =>
        cases b with
        | true => cases h
        | false => exact fit_inR h
  | chr =>
    cases a with
    | num t a =>
      obtain ⟨rfl, ha⟩ := ha
      simp only [KFn.exact] at h
      split at h
      · rename_i hc
        cases h
        refine ⟨⟨0xc004, by decide, rfl, by decide, ?_⟩, trivial⟩
        intro s r
        have key : BitVec.ofInt 32 a = (BitVec.ofInt 8 a).zeroExtend 32 := by
          apply BitVec.eq_of_toNat_eq
          simp [BitVec.toNat_ofInt]
          omega
        simp [stdFunc, go, Val.constKind, Val.constBits, key]
      · cases h
    | _ => cases h

theorem lit_factor {s : KS} {t : Tk} {r : List Tk} {v : Val} (ht : s.toks = t :: r)
    (h : literal t = some (v.constKind, v.constBits)) (n : Nat) (min : Word) :
    constFactor (n + 1) min s = some (go s r v) := by
  have h1 : s.tok = t := by simp [KS.tok, ht]
  rw [constFactor, h1, h]
  simp [go, KS.next, ht]

/-- Reading a constant expression at its level: a factor is read, a term or a simple expression
leads to the loop for further operands. -/
def ParsesK : {l : Lvl} → K l → Prop
  | .expr, _ => True
  | .factor, k => ∀ s rest v, k.exact 32 = some v → k.NoIntegerOr → s.toks = k.toks ++ rest →
      InR v ∧ ∃ N, ∀ n, N ≤ n → ∀ min, constFactor n min s = some (go s rest v)
  | .term, k => ∀ s rest v, k.exact 32 = some v → k.NoIntegerOr → s.toks = k.toks ++ rest →
      InR v ∧ ∃ N j v', j < N ∧ ∀ n, N ≤ n → ∀ min, constTerm n min s =
        termLoop (n - j) min v.constKind v.constBits (go s rest v')
  | .simple, k => ∀ s rest v, k.exact 32 = some v → k.NoIntegerOr → s.toks = k.toks ++ rest →
      (∀ t kk, rest.head? = some t → mulAllowed t kk = false) →
      InR v ∧ ∃ N j v' st, j < N ∧ ∀ n, N ≤ n → ∀ min, constSimple n min s =
        simpleLoop (n - j) min v.constKind v.constBits st (go s rest v')

theorem go_toks (s : KS) (r : List Tk) (v : Val) : (go s r v).toks = r := rfl

theorem go_go (s : KS) (r r' : List Tk) (v v' : Val) : go (go s r v) r' v' = go s r' v' := rfl

theorem go_next (s : KS) (t : Tk) (r : List Tk) (v : Val) :
    (go s (t :: r) v).next = go s r v := rfl

theorem go_tok (s : KS) (t : Tk) (r : List Tk) (v : Val) : (go s (t :: r) v).tok = t := rfl

theorem next_go (s : KS) (r : List Tk) (v : Val) : go s.next r v = go s r v := rfl

theorem go_stop {s : KS} {rest : List Tk} {v : Val} {f : Tk → Bool} (hp : f .period = false)
    (h : ∀ t, rest.head? = some t → f t = false) : f (go s rest v).tok = false := by
  cases rest with
  | nil => exact hp
  | cons t r => exact h t rfl

/-- A complete term. -/
theorem term_end {k : K .term} (hk : ParsesK k) {s : KS} {rest : List Tk} {v : Val}
    (h : k.exact 32 = some v) (ho : k.NoIntegerOr) (ht : s.toks = k.toks ++ rest)
    (hr : ∀ t kk, rest.head? = some t → mulAllowed t kk = false) :
    InR v ∧ ∃ N, ∀ n, N ≤ n → ∀ min, constTerm n min s = some (go s rest v) := by
  obtain ⟨hv, N, j, v', hj, hN⟩ := hk s rest v h ho ht
  refine ⟨hv, N, fun n hn min => ?_⟩
  rw [hN n hn]
  obtain ⟨m, hm⟩ : ∃ m, n - j = m + 1 := ⟨n - j - 1, by omega⟩
  rw [hm, termLoop, if_neg]
  · rfl
  · rw [go_stop (f := fun t => mulAllowed t v.constKind) rfl (fun t => hr t _)]
    simp

theorem simple_end {k : K .simple} (hk : ParsesK k) {s : KS} {rest : List Tk} {v : Val}
    (h : k.exact 32 = some v) (ho : k.NoIntegerOr) (ht : s.toks = k.toks ++ rest)
    (hr : ∀ t kk, rest.head? = some t → mulAllowed t kk = false ∧ addAllowed t kk = false) :
    InR v ∧ ∃ N, ∀ n, N ≤ n → ∀ min, constSimple n min s = some (go s rest v) := by
  obtain ⟨hv, N, j, v', st, hj, hN⟩ := hk s rest v h ho ht (fun t kk he => (hr t kk he).1)
  refine ⟨hv, N, fun n hn min => ?_⟩
  rw [hN n hn]
  obtain ⟨m, hm⟩ : ∃ m, n - j = m + 1 := ⟨n - j - 1, by omega⟩
  rw [hm, simpleLoop, if_neg]
  · rfl
  · rw [go_stop (f := fun t => addAllowed t v.constKind) rfl (fun t he => (hr t _ he).2)]
    simp

theorem expr_end {k : K .simple} (hk : ParsesK k) {s : KS} {rest : List Tk} {v : Val}
    (h : k.exact 32 = some v) (ho : k.NoIntegerOr) (ht : s.toks = k.toks ++ rest)
    (hr : ∀ t kk, rest.head? = some t →
      mulAllowed t kk = false ∧ addAllowed t kk = false ∧ relAllowed t kk = false) :
    InR v ∧ ∃ N, ∀ n, N ≤ n → ∀ min, constExpr n min s = some (go s rest v) := by
  obtain ⟨hv, N, hN⟩ := simple_end hk h ho ht (fun t kk he => ⟨(hr t kk he).1, (hr t kk he).2.1⟩)
  refine ⟨hv, N + 1, fun n hn min => ?_⟩
  obtain ⟨m, rfl⟩ : ∃ m, n = m + 1 := ⟨n - 1, by omega⟩
  rw [constExpr, hN m (by omega)]
  simp only [Option.bind_eq_bind, Option.bind_some]
  rw [if_neg]
  · rfl
  · rw [go_stop (f := fun t => relAllowed t (go s rest v).kind) ?_ (fun t he => (hr t _ he).2.2)]
    · simp
    · cases v <;> rfl

theorem isBool_ok {l : Lvl} (k : K l) {v : Val} (hb : k.isBool = true)
    (h : k.exact 32 = some v) : ∃ b, v = .bool b := by
  induction k generalizing v with
  | bool b => cases h; exact ⟨b, rfl⟩
  | not f ih =>
    simp only [K.exact] at h
    simp only [K.isBool] at hb
    cases hf : f.exact 32 with
    | none => rw [hf] at h; cases h
    | some w =>
      obtain ⟨b, rfl⟩ := ih hb hf
      rw [hf] at h
      cases h
      exact ⟨_, rfl⟩
  | factor f ih => exact ih hb h
  | mul t op f ih _ =>
    simp only [K.exact, Option.bind_eq_bind, Option.bind_eq_some_iff] at h
    obtain ⟨a, ha, b, _, h⟩ := h
    obtain ⟨x, rfl⟩ := ih hb ha
    cases op <;> cases b <;> cases h
    exact ⟨_, rfl⟩
  | term sg t ih =>
    cases sg with
    | none => exact ih hb h
    | some sg => cases hb
  | add s op t ih _ =>
    simp only [K.exact, Option.bind_eq_bind, Option.bind_eq_some_iff] at h
    obtain ⟨a, ha, b, _, h⟩ := h
    obtain ⟨x, rfl⟩ := ih hb ha
    cases op <;> cases b <;> cases h
    exact ⟨_, rfl⟩
  | _ => cases hb

theorem mulOp_tk (op : MulOp) (k : KK) : addAllowed op.tk k = false := by
  cases op <;> rfl

theorem addOp_tk (op : AddOp) (k : KK) : mulAllowed op.tk k = false := by
  cases op <;> rfl

theorem head_ok {l : Lvl} (k : K l) (hl : l ≠ .simple) :
    ∃ t r, k.toks = t :: r ∧ t ≠ .plus ∧ t ≠ .minus := by
  induction k with
  | factor f ih => exact ih (by simp)
  | mul t op f ih _ =>
    obtain ⟨t', r, h1, h2⟩ := ih (by simp)
    exact ⟨t', _, by rw [K.toks, h1]; rfl, h2⟩
  | fn f e _ => exact ⟨_, _, rfl, by cases f <;> simp [KFn.fn, Fn.tk], by cases f <;> simp [KFn.fn, Fn.tk]⟩
  | term => exact absurd rfl hl
  | add => exact absurd rfl hl
  | _ => exact ⟨_, _, rfl, by simp, by simp⟩

theorem parsesK {l : Lvl} (k : K l) : ParsesK k := by
  induction k with
  | int n =>
    intro s rest v h _ ht
    obtain ⟨rfl, hv⟩ := fit_some h
    refine ⟨⟨rfl, hv⟩, 1, fun m hm min => ?_⟩
    obtain ⟨m, rfl⟩ : ∃ m', m = m' + 1 := ⟨m - 1, by omega⟩
    refine lit_factor ht ?_ m min
    simp [literal, Val.constKind, Val.constBits]
  | bool b =>
    intro s rest v h _ ht
    cases h
    refine ⟨trivial, 1, fun m hm min => ?_⟩
    obtain ⟨m, rfl⟩ : ∃ m', m = m' + 1 := ⟨m - 1, by omega⟩
    exact lit_factor ht rfl m min
  | char c =>
    intro s rest v h _ ht
    simp only [K.exact] at h
    split at h <;> cases h
    refine ⟨trivial, 1, fun m hm min => ?_⟩
    obtain ⟨m, rfl⟩ : ∃ m', m = m' + 1 := ⟨m - 1, by omega⟩
    exact lit_factor ht rfl m min
  | not f ih =>
    intro s rest v h ho ht
    simp only [K.exact] at h
    cases hf : f.exact 32 with
    | none => rw [hf] at h; cases h
    | some w =>
      rw [hf] at h
      obtain ⟨hw, N, hN⟩ := ih s.next rest w hf ho (by simp [KS.next, ht, K.toks])
      have hn : (w.constKind = .int ∨ w.constKind = .bool) ∧ v.constKind = w.constKind ∧
          v.constBits = ~~~w.constBits ∧ InR v := by
        cases w with
        | num t i =>
          obtain ⟨rfl, hv⟩ := fit_some h
          refine ⟨.inl rfl, rfl, ?_, rfl, hv⟩
          simp only [Val.constBits]
          rw [show -i - 1 = -i + -1 from rfl, BitVec.ofInt_add, BitVec.ofInt_neg,
            BitVec.neg_eq_not_add, show BitVec.ofInt 32 (-1) = -1#32 from rfl, ← BitVec.sub_eq_add_neg,
            BitVec.add_sub_cancel]
        | bool b =>
          cases h
          exact ⟨.inr rfl, rfl, by cases b <;> rfl, trivial⟩
        | char c => cases h
      refine ⟨hn.2.2.2, N + 1, fun m hm min => ?_⟩
      obtain ⟨m, rfl⟩ : ∃ m', m = m' + 1 := ⟨m - 1, by omega⟩
      have h1 : s.tok = .not_ := by simp [KS.tok, ht, K.toks]
      rw [constFactor, h1]
      have : literal .not_ = none := rfl
      rw [this]
      simp only [reduceCtorEq, if_false, if_true, hN m (by omega), Option.bind_eq_bind,
        Option.bind_some]
      rw [if_neg (by rcases hn.1 with h | h <;> simp [go, h])]
      simp [go, KS.next, hn.2.1, hn.2.2.1]
  | fn f e ih =>
    intro s rest v h ho ht
    simp only [K.exact, Option.bind_eq_bind, Option.bind_eq_some_iff] at h
    obtain ⟨a, ha, h⟩ := h
    obtain ⟨ha', N, hN⟩ := expr_end (s := s.next.next) (rest := .rparen :: rest) ih ha ho
      (by simp [KS.next, ht, K.toks])
      (by intro t kk he; cases he; exact ⟨rfl, rfl, by cases kk <;> rfl⟩)
    obtain ⟨⟨c, hc1, hc2, hc3, hc4⟩, hv⟩ := fn_ok h ha'
    refine ⟨hv, N + 1, fun m hm min => ?_⟩
    obtain ⟨m, rfl⟩ : ∃ m', m = m' + 1 := ⟨m - 1, by omega⟩
    have h1 : s.tok = f.fn.tk := by simp [KS.tok, ht, K.toks]
    have h2 : literal f.fn.tk = none := by rw [hc2]; rfl
    have h3 : s.next.expect .lparen = s.next.next := by
      unfold KS.expect
      rw [if_pos]
      simp [KS.tok, KS.next, ht, K.toks]
    have h4 : f.fn.tk ≠ .other 0x5b := by cases f <;> simp [KFn.fn, Fn.tk]
    have h5 : f.fn.tk ≠ .not_ := by cases f <;> simp [KFn.fn, Fn.tk]
    rw [constFactor, h1, h2]
    simp only [h4, h5, if_false, hc3, h3, hN m (by omega), Option.bind_eq_bind, Option.bind_some,
      hc4, Option.pure_def]
    congr 1
  | factor f ih =>
    intro s rest v h ho ht
    obtain ⟨hv, N, hN⟩ := ih s rest v h ho ht
    refine ⟨hv, N + 2, 1, v, by omega, fun n hn min => ?_⟩
    obtain ⟨m, rfl⟩ : ∃ m', n = m' + 1 := ⟨n - 1, by omega⟩
    rw [constTerm, hN m (by omega)]
    rfl
  | mul t op f iht ihf =>
    intro s rest v h ho ht
    simp only [K.exact, Option.bind_eq_bind, Option.bind_eq_some_iff] at h
    obtain ⟨a, ha, b, hb, h⟩ := h
    obtain ⟨ha', N, j, v', hj, hN⟩ := iht s (op.tk :: (f.toks ++ rest)) a ha ho.1
      (by simp [ht, K.toks])
    obtain ⟨hb', M, hM⟩ := ihf (go s (f.toks ++ rest) v') rest b hb ho.2 rfl
    obtain ⟨h1, h2, h3, h4, h5⟩ := mul_ok h ha' hb'
    refine ⟨h5, N + M + j + 2, j + 1, b, by omega, fun n hn min => ?_⟩
    rw [hN n (by omega)]
    obtain ⟨m, hm⟩ : ∃ m, n - j = m + 1 := ⟨n - j - 1, by omega⟩
    rw [hm, show n - (j + 1) = m from by omega, termLoop, go_tok, if_pos h1, h4]
    have h6 : (go s rest b).kind = a.constKind := h2
    have h7 : (go s rest b).int = b.constBits := rfl
    simp only [go_next, hM m (by omega), Option.bind_eq_bind, Option.bind_some, go_go, h6, h7, h3,
      ne_eq, not_true_eq_false, if_false, Bool.false_eq_true, undef_false]
  | term sg t ih =>
    intro s rest v h ho ht hr
    cases sg with
    | none =>
      obtain ⟨hv, N, hN⟩ := term_end ih (s := s) (rest := rest) h ho ht hr
      have hs : s.tok ≠ .plus ∧ s.tok ≠ .minus := by
        obtain ⟨t', r, h1, h2⟩ := head_ok t (by simp)
        have : s.tok = t' := by simp [KS.tok, ht, K.toks, h1]
        rw [this]; exact h2
      refine ⟨hv, N + 2, 1, v, s.set, by omega, fun n hn min => ?_⟩
      obtain ⟨m, rfl⟩ : ∃ m', n = m' + 1 := ⟨n - 1, by omega⟩
      rw [constSimple]
      simp only [hs.1, hs.2, or_self, decide_false, Bool.false_eq_true, if_false, false_and,
        hN m (by omega), Option.bind_eq_bind, Option.bind_some]
      rfl
    | some sg =>
      simp only [K.exact] at h
      cases hf : t.exact 32 with
      | none => rw [hf] at h; cases h
      | some w =>
        rw [hf] at h
        cases w with
        | num ty i =>
          obtain ⟨hw, N, hN⟩ := term_end ih (s := s.next) (rest := rest) hf ho
            (by simp [KS.next, ht, K.toks]) hr
          obtain ⟨rfl, hv⟩ := fit_some h
          refine ⟨⟨rfl, hv⟩, N + 2, 1, .num ty i, s.set, by omega, fun n hn min => ?_⟩
          obtain ⟨m, rfl⟩ : ∃ m', n = m' + 1 := ⟨n - 1, by omega⟩
          have h1 : s.tok = sg.tk := by simp [KS.tok, ht, K.toks]
          rw [constSimple, h1]
          cases sg with
          | plus =>
            simp only [Sign.tk, true_or, decide_true, if_true, hN m (by omega),
              Option.bind_eq_bind, Option.bind_some]
            rfl
          | minus =>
            simp only [if_true] at hv
            have h2 : (go s.next rest (Val.num ty i)).int.toInt = i := toInt_ok hw.2
            simp only [Sign.tk, or_true, decide_true, if_true, hN m (by omega),
              Option.bind_eq_bind, Option.bind_some, h2, arith_ok hv, undef_false]
            rfl
        | bool => cases h
        | char => cases h
  | add s' op t ihs iht =>
    intro s rest v h ho ht hr
    simp only [K.exact, Option.bind_eq_bind, Option.bind_eq_some_iff] at h
    obtain ⟨a, ha, b, hb, h⟩ := h
    obtain ⟨ha', N, j, v', st, hj, hN⟩ := ihs s (op.tk :: (t.toks ++ rest)) a ha ho.1
      (by simp [ht, K.toks]) (by intro t kk he; cases he; exact addOp_tk op kk)
    obtain ⟨hb', M, hM⟩ := term_end iht (s := go s (t.toks ++ rest) v') (rest := rest) hb ho.2.1
      rfl hr
    obtain ⟨h1, h2, h3, h4, h5⟩ := add_ok h ha' hb' (fun ho' => isBool_ok s' (ho.2.2 ho') ha)
    refine ⟨h5, N + M + j + 2, j + 1, b, st, by omega, fun n hn min => ?_⟩
    rw [hN n (by omega)]
    obtain ⟨m, hm⟩ : ∃ m, n - j = m + 1 := ⟨n - j - 1, by omega⟩
    rw [hm, show n - (j + 1) = m from by omega, simpleLoop, go_tok, if_pos h1, h4]
    have h6 : (go s rest b).kind = a.constKind := h2
    have h7 := h3 (go s rest b) st rfl
    simp only [go_next, hM m (by omega), Option.bind_eq_bind, Option.bind_some, go_go, h6, h7,
      ne_eq, not_true_eq_false, if_false]

/-! ### The value at run time -/

theorem fit16 {i : Int} {v : Val} (h : fit 16 i = some v) :
    v = .num .integer i ∧ (-32768 ≤ i ∧ i < 32768) ∧ fit 32 i = some v := by
  unfold fit at h
  split at h
  · rename_i hc
    cases h
    simp at hc
    refine ⟨rfl, hc, ?_⟩
    unfold fit
    rw [if_pos]
    simp
    omega
  · cases h

/-- The value is an integer of 16 bits, if it is an integer. -/
def In16 : Val → Prop
  | .num t i => t = .integer ∧ -32768 ≤ i ∧ i < 32768
  | _ => True

theorem fit16_in {i : Int} {v : Val} (h : fit 16 i = some v) : In16 v := by
  obtain ⟨rfl, hv, _⟩ := fit16 h
  exact ⟨rfl, hv⟩

theorem wrap16 {i : Int} (h : -32768 ≤ i ∧ i < 32768) : wrap .integer i = i := by
  simp only [wrap, IntTy.signed, if_true]
  exact Int.bmod_eq_of_le (by omega) (by omega)

theorem ofInt_signExtend {i : Int} (h : -32768 ≤ i ∧ i < 32768) :
    BitVec.ofInt 32 i = (BitVec.ofInt 16 i).signExtend 32 := by
  apply BitVec.eq_of_toInt_eq
  rw [toInt_ok (by omega), BitVec.toInt_signExtend_of_le (by omega), BitVec.toInt_ofInt]
  exact (Int.bmod_eq_of_le (by omega) (by omega)).symm

theorem and_16 {a b : Int} (ha : -32768 ≤ a ∧ a < 32768) (hb : -32768 ≤ b ∧ b < 32768) :
    (BitVec.ofInt 32 a &&& BitVec.ofInt 32 b).toInt =
      (BitVec.ofInt 16 a &&& BitVec.ofInt 16 b).toInt := by
  rw [ofInt_signExtend ha, ofInt_signExtend hb, ← BitVec.signExtend_and,
    BitVec.toInt_signExtend_of_le (by omega)]

theorem or_16 {a b : Int} (ha : -32768 ≤ a ∧ a < 32768) (hb : -32768 ≤ b ∧ b < 32768) :
    (BitVec.ofInt 32 a ||| BitVec.ofInt 32 b).toInt =
      (BitVec.ofInt 16 a ||| BitVec.ofInt 16 b).toInt := by
  rw [ofInt_signExtend ha, ofInt_signExtend hb, ← BitVec.signExtend_or,
    BitVec.toInt_signExtend_of_le (by omega)]

theorem mul_16 {op : MulOp} {a b v : Val} (h : mulExact 16 op a b = some v) (ha : In16 a)
    (hb : In16 b) : mulExact 32 op a b = some v ∧ mulVal op a b = some v ∧
      mulType op a.ty b.ty = some v.ty ∧ In16 v := by
  cases a with
  | num t a =>
    cases b with
    | num t' b =>
      obtain ⟨rfl, ha⟩ := ha
      obtain ⟨rfl, hb⟩ := hb
      cases op with
      | mul =>
        obtain ⟨rfl, hv, h32⟩ := fit16 h
        refine ⟨h32, ?_, rfl, rfl, hv⟩
        simp [mulVal, wrap16 hb, wrap16 hv, IntTy.signed]
      | div =>
        simp only [mulExact] at h ⊢
        split at h
        · cases h
        rename_i hz
        obtain ⟨rfl, hv, h32⟩ := fit16 h
        refine ⟨by rw [if_neg hz]; exact h32, ?_, rfl, rfl, hv⟩
        simp [mulVal, wrap16 hb, wrap16 hv, hz]
      | mod =>
        simp only [mulExact] at h ⊢
        split at h
        · cases h
        rename_i hz
        have hz1 : b ≠ 0 := fun h => hz (.inl h)
        have hd : ∃ w, fit 16 (a.tdiv b) = some w := by
          cases hf : fit 16 (a.tdiv b) with
          | none => exact absurd (.inr hf) hz
          | some w => exact ⟨w, rfl⟩
        obtain ⟨w, hw⟩ := hd
        obtain ⟨rfl, hv, h32⟩ := fit16 h
        refine ⟨?_, ?_, rfl, rfl, hv⟩
        · rw [if_neg]
          · exact h32
          · rintro (h | h)
            · exact hz1 h
            · rw [(fit16 hw).2.2] at h; cases h
        · simp [mulVal, wrap16 hb, wrap16 hv, hz1]
      | and =>
        obtain ⟨rfl, hv, h32⟩ := fit16 h
        refine ⟨?_, ?_, rfl, rfl, hv⟩
        · simp only [mulExact]
          rw [and_16 ha hb]
          exact h32
        · simp only [mulVal, ofBits, IntTy.signed, if_true]
      | shl =>
        simp only [mulExact] at h ⊢
        split at h
        · rename_i hc
          obtain ⟨rfl, hv, h32⟩ := fit16 h
          refine ⟨by rw [if_pos hc]; exact h32, ?_, rfl, rfl, hv⟩
          simp only [mulVal, if_pos hc, wrap16 hv]
        · cases h
      | shr =>
        simp only [mulExact] at h ⊢
        split at h
        · rename_i hc
          obtain ⟨rfl, hv, h32⟩ := fit16 h
          refine ⟨by rw [if_pos hc]; exact h32, ?_, rfl, rfl, hv⟩
          simp only [mulVal, if_pos hc]
        · cases h
      | amp => cases h
    | _ => cases op <;> cases h
  | bool a =>
    cases b with
    | bool b =>
      cases op with
      | and =>
        cases h
        exact ⟨rfl, rfl, rfl, trivial⟩
      | _ => cases h
    | _ => cases op <;> cases h
  | char _ => cases op <;> cases h

theorem add_16 {op : AddOp} {a b v : Val} (h : addExact 16 op a b = some v) (ha : In16 a)
    (hb : In16 b) : addExact 32 op a b = some v ∧ addVal op a b = some v ∧
      addType op a.ty b.ty = some v.ty ∧ In16 v := by
  cases a with
  | num t a =>
    cases b with
    | num t' b =>
      obtain ⟨rfl, ha⟩ := ha
      obtain ⟨rfl, hb⟩ := hb
      cases op with
      | add =>
        obtain ⟨rfl, hv, h32⟩ := fit16 h
        exact ⟨h32, by simp only [addVal, wrap16 hv], rfl, rfl, hv⟩
      | sub =>
        obtain ⟨rfl, hv, h32⟩ := fit16 h
        exact ⟨h32, by simp only [addVal, wrap16 hv], rfl, rfl, hv⟩
      | or =>
        obtain ⟨rfl, hv, h32⟩ := fit16 h
        refine ⟨?_, ?_, rfl, rfl, hv⟩
        · simp only [addExact]
          rw [or_16 ha hb]
          exact h32
        · simp only [addVal, ofBits, IntTy.signed, if_true]
      | bar => cases h
      | xor => cases h
    | _ => cases op <;> cases h
  | bool a =>
    cases b with
    | bool b =>
      cases op with
      | or =>
        cases h
        exact ⟨rfl, rfl, rfl, trivial⟩
      | _ => cases h
    | _ => cases op <;> cases h
  | char _ => cases op <;> cases h

theorem fn_16 {f : KFn} {a v : Val} (h : f.exact 16 a = some v) (ha : In16 a) :
    f.exact 32 a = some v ∧ In16 v := by
  cases f with
  | chr =>
    cases a with
    | num t a =>
      refine ⟨h, ?_⟩
      simp only [KFn.exact] at h
      split at h <;> cases h
      trivial
    | _ => cases h
  | ord =>
    cases a with
    | num t a => cases h; exact ⟨rfl, rfl, ha.2⟩
    | char c => exact ⟨(fit16 h).2.2, fit16_in h⟩
    | bool b =>
      cases b with
      | true => cases h
      | false => exact ⟨(fit16 h).2.2, fit16_in h⟩
  | pred =>
    cases a with
    | num t a => exact ⟨(fit16 h).2.2, fit16_in h⟩
    | char c =>
      refine ⟨h, ?_⟩
      simp only [KFn.exact] at h
      split at h <;> cases h
      trivial
    | bool => cases h
  | succ =>
    cases a with
    | num t a => exact ⟨(fit16 h).2.2, fit16_in h⟩
    | char c =>
      refine ⟨h, ?_⟩
      simp only [KFn.exact] at h
      split at h <;> cases h
      trivial
    | bool => cases h
  | abs =>
    cases a with
    | num t a => exact ⟨(fit16 h).2.2, fit16_in h⟩
    | _ => cases h
  | sqr =>
    cases a with
    | num t a => exact ⟨(fit16 h).2.2, fit16_in h⟩
    | _ => cases h

/-- What is exact in 16 bits is exact in 32 bits. -/
theorem exact_16 {l : Lvl} (k : K l) {v : Val} (h : k.exact 16 = some v) :
    k.exact 32 = some v ∧ In16 v := by
  induction k generalizing v with
  | int n => exact ⟨(fit16 h).2.2, fit16_in h⟩
  | bool b => cases h; exact ⟨rfl, trivial⟩
  | char c =>
    refine ⟨h, ?_⟩
    simp only [K.exact] at h
    split at h <;> cases h
    trivial
  | not f ih =>
    simp only [K.exact] at h ⊢
    cases hf : f.exact 16 with
    | none => rw [hf] at h; cases h
    | some w =>
      rw [hf] at h
      rw [(ih hf).1]
      cases w with
      | num t i => exact ⟨(fit16 h).2.2, fit16_in h⟩
      | bool b => cases h; exact ⟨rfl, trivial⟩
      | char c => cases h
  | fn f e ih =>
    simp only [K.exact, Option.bind_eq_bind, Option.bind_eq_some_iff] at h ⊢
    obtain ⟨a, ha, h⟩ := h
    have := fn_16 h (ih ha).2
    exact ⟨⟨a, (ih ha).1, this.1⟩, this.2⟩
  | factor f ih => exact ih h
  | mul t op f iht ihf =>
    simp only [K.exact, Option.bind_eq_bind, Option.bind_eq_some_iff] at h ⊢
    obtain ⟨a, ha, b, hb, h⟩ := h
    have := mul_16 h (iht ha).2 (ihf hb).2
    exact ⟨⟨a, (iht ha).1, b, (ihf hb).1, this.1⟩, this.2.2.2⟩
  | term sg t ih =>
    cases sg with
    | none => exact ih h
    | some sg =>
      simp only [K.exact] at h ⊢
      cases hf : t.exact 16 with
      | none => rw [hf] at h; cases h
      | some w =>
        rw [hf] at h
        rw [(ih hf).1]
        cases w with
        | num t i => exact ⟨(fit16 h).2.2, fit16_in h⟩
        | bool b => cases h
        | char c => cases h
  | add s op t ihs iht =>
    simp only [K.exact, Option.bind_eq_bind, Option.bind_eq_some_iff] at h ⊢
    obtain ⟨a, ha, b, hb, h⟩ := h
    have := add_16 h (ihs ha).2 (iht hb).2
    exact ⟨⟨a, (ihs ha).1, b, (iht hb).1, this.1⟩, this.2.2.2⟩

/-- Nothing is expected that changes the type of an integer constant. -/
def Plain (x : Expect) : Prop := x ≠ .a (.num .shortInteger) ∧ x ≠ .a (.num .shortWord)

theorem val_ty {v : Val} (h : In16 v) (x : Expect) (hx : Plain x) : Plain (x.later v.ty) := by
  unfold Expect.later
  split
  · cases v with
    | num t i => obtain ⟨rfl, _⟩ := h; exact ⟨by simp [Val.ty], by simp [Val.ty]⟩
    | bool b => exact ⟨by simp [Val.ty], by simp [Val.ty]⟩
    | char b => exact ⟨by simp [Val.ty], by simp [Val.ty]⟩
  · exact hx

theorem plain_second {x : Expect} (hx : Plain x) (op : MulOp) : Plain (x.second op) := by
  unfold Expect.second
  split
  · exact ⟨by simp, by simp⟩
  · exact hx

/-- A standard function gives in statements what it gives for constants. -/
theorem fn_run {f : KFn} {a v : Val} (h : f.exact 16 a = some v) (ha : In16 a) :
    f.fn.type a.ty = some v.ty ∧ f.fn.val a = some v := by
  cases a with
  | num t i =>
    obtain ⟨rfl, hr⟩ := ha
    cases f with
    | abs | sqr | pred | succ =>
      obtain ⟨rfl, hv, _⟩ := fit16 h
      refine ⟨rfl, ?_⟩
      simp only [KFn.fn, Fn.val, wrap16 hv]
      try rfl
    | ord =>
      cases h
      exact ⟨rfl, by simp only [KFn.fn, Fn.val, wrap16 hr]⟩
    | chr =>
      simp only [KFn.exact] at h
      split at h
      · next h' => cases h; exact ⟨rfl, by simp [KFn.fn, Fn.val, h']⟩
      · cases h
  | bool b =>
    cases b <;> cases f <;> first | (cases h; done) | skip
    obtain ⟨rfl, hv, _⟩ := fit16 h
    exact ⟨rfl, rfl⟩
  | char c =>
    cases f with
    | pred | succ =>
      simp only [KFn.exact] at h
      split at h
      · cases h
      · next h' => cases h; exact ⟨rfl, by simp [KFn.fn, Fn.val, h']⟩
    | ord => 
      obtain ⟨rfl, hv, _⟩ := fit16 h
      exact ⟨rfl, rfl⟩
    | _ => cases h

/-- The same expression in a statement has the same tokens, no variables, a type, and the exact
value. -/
theorem asExpr_ok {l : Lvl} (k : K l) {e : E l} (he : k.asExpr = some e) {v : Val}
    (h : k.exact 16 = some v) : e.toks = k.toks ∧ e.vars = [] ∧
      ∀ x, Plain x → e.typeOf x = some v.ty ∧ ∀ σ, e.eval σ x = some v := by
  induction k generalizing v with
  | int n =>
    cases he
    refine ⟨rfl, rfl, fun x hx => ?_⟩
    obtain ⟨rfl, hv, _⟩ := fit16 h
    have : litType x n = some .integer := by
      unfold litType
      rw [if_neg (fun h => hx.1 h.1), if_neg hx.2, if_pos (by omega)]
    exact ⟨by simp [E.typeOf, this, Val.ty], fun σ => by simp [E.eval, this]⟩
  | bool b => cases he; cases h; exact ⟨rfl, rfl, fun x _ => ⟨rfl, fun _ => rfl⟩⟩
  | char c =>
    cases he
    simp only [K.exact] at h
    split at h
    · rename_i hc
      cases h
      exact ⟨rfl, rfl, fun x _ => ⟨by simp [E.typeOf, hc, Val.ty], fun _ => rfl⟩⟩
    · cases h
  | not f ih =>
    simp only [K.asExpr, Option.map_eq_some_iff] at he
    obtain ⟨e', he', rfl⟩ := he
    simp only [K.exact] at h
    cases hf : f.exact 16 with
    | none => rw [hf] at h; cases h
    | some w =>
      rw [hf] at h
      obtain ⟨h1, h2, h3⟩ := ih he' hf
      refine ⟨by simp [E.toks, K.toks, h1], h2, fun x hx => ?_⟩
      obtain ⟨h4, h5⟩ := h3 x hx
      cases w with
      | num t i =>
        have h6 := (exact_16 f hf).2.1
        subst h6
        obtain ⟨rfl, hv, _⟩ := fit16 h
        refine ⟨?_, fun σ => ?_⟩
        · simp only [E.typeOf, h4]; rfl
        · simp only [E.eval, h5, wrap16 hv]
      | bool b =>
        cases h
        refine ⟨?_, fun σ => ?_⟩
        · simp only [E.typeOf, h4]; rfl
        · simp only [E.eval, h5]
      | char c => cases h
  | fn f e ih =>
    simp only [K.asExpr, Option.map_eq_some_iff] at he
    obtain ⟨e', he', rfl⟩ := he
    simp only [K.exact, Option.bind_eq_bind, Option.bind_eq_some_iff] at h
    obtain ⟨a, ha, h⟩ := h
    obtain ⟨h1, h2, h3⟩ := ih he' ha
    obtain ⟨g1, g2⟩ := fn_run h (exact_16 e ha).2
    refine ⟨by simp [E.toks, K.toks, h1], h2, fun x hx => ?_⟩
    obtain ⟨h4, h5⟩ := h3 f.fn.expect (by cases f <;> exact ⟨by simp [KFn.fn, Fn.expect], by simp [KFn.fn, Fn.expect]⟩)
    have h6 : (E.simple e').typeOf f.fn.expect = some a.ty := by
      simp only [E.typeOf, h4, Option.bind_eq_bind, Option.bind_some]
      cases f <;> first | rfl | skip
      cases a with
      | num t i => obtain ⟨rfl, _⟩ := (exact_16 e ha).2; rfl
      | _ => cases h
    refine ⟨?_, fun σ => ?_⟩
    · simp only [E.typeOf] at h6 ⊢
      rw [h6]
      exact g1
    · simp only [E.eval, h5, Option.bind_eq_bind, Option.bind_some]
      exact g2
  | factor f ih =>
    simp only [K.asExpr, Option.map_eq_some_iff] at he
    obtain ⟨e', he', rfl⟩ := he
    exact ih he' h
  | mul t op f iht ihf =>
    simp only [K.asExpr, Option.bind_eq_bind, Option.bind_eq_some_iff] at he
    obtain ⟨e1, he1, e2, he2, he⟩ := he
    cases he
    simp only [K.exact, Option.bind_eq_bind, Option.bind_eq_some_iff] at h
    obtain ⟨a, ha, b, hb, h⟩ := h
    obtain ⟨h1, h2, h3⟩ := iht he1 ha
    obtain ⟨g1, g2, g3⟩ := ihf he2 hb
    obtain ⟨_, m1, m2, m3⟩ := mul_16 h (exact_16 t ha).2 (exact_16 f hb).2
    refine ⟨by simp [E.toks, K.toks, h1, g1], by simp [E.vars, h2, g2], fun x hx => ?_⟩
    obtain ⟨h4, h5⟩ := h3 x hx
    obtain ⟨g4, g5⟩ := g3 (x.second op) (plain_second hx op)
    exact ⟨by simp [E.typeOf, h4, g4, m2], fun σ => by simp [E.eval, h5, g5, m1]⟩
  | term sg t ih =>
    simp only [K.asExpr, Option.map_eq_some_iff] at he
    obtain ⟨e', he', rfl⟩ := he
    cases sg with
    | none => exact ih he' h
    | some sg =>
      simp only [K.exact] at h
      cases hf : t.exact 16 with
      | none => rw [hf] at h; cases h
      | some w =>
        rw [hf] at h
        obtain ⟨h1, h2, h3⟩ := ih he' hf
        refine ⟨by simp [E.toks, K.toks, h1], h2, fun x hx => ?_⟩
        obtain ⟨h4, h5⟩ := h3 x hx
        cases w with
        | num ty i =>
          have h6 := (exact_16 t hf).2
          obtain ⟨rfl, h7⟩ := h6
          obtain ⟨rfl, hv, _⟩ := fit16 h
          refine ⟨?_, fun σ => ?_⟩
          · simp only [E.typeOf, h4]; rfl
          · cases sg with
            | plus => simp only [E.eval, h5]; simp
            | minus =>
              simp only [if_true] at hv
              simp only [E.eval, h5, wrap16 hv, if_true]
        | bool b => cases h
        | char c => cases h
  | add s op t ihs iht =>
    simp only [K.asExpr, Option.bind_eq_bind, Option.bind_eq_some_iff] at he
    obtain ⟨e1, he1, e2, he2, he⟩ := he
    cases he
    simp only [K.exact, Option.bind_eq_bind, Option.bind_eq_some_iff] at h
    obtain ⟨a, ha, b, hb, h⟩ := h
    obtain ⟨h1, h2, h3⟩ := ihs he1 ha
    obtain ⟨g1, g2, g3⟩ := iht he2 hb
    obtain ⟨_, m1, m2, m3⟩ := add_16 h (exact_16 s ha).2 (exact_16 t hb).2
    refine ⟨by simp [E.toks, K.toks, h1, g1], by simp [E.vars, h2, g2], fun x hx => ?_⟩
    obtain ⟨h4, h5⟩ := h3 x hx
    obtain ⟨g4, g5⟩ := g3 (x.later a.ty) (val_ty (exact_16 s ha).2 x hx)
    exact ⟨by simp [E.typeOf, h4, g4, m2], fun σ => by simp [E.eval, h5, g5, m1]⟩

/-! ### Constant definitions -/

theorem ends_const {rest : List Tk} (h : Ends rest) : ∀ t kk, rest.head? = some t →
    mulAllowed t kk = false ∧ addAllowed t kk = false ∧ relAllowed t kk = false := by
  intro t kk ht
  have := h t ht
  simp only [operators, List.mem_cons, List.not_mem_nil, or_false, not_or] at this
  cases t <;> first
    | (exfalso; simp at this; done)
    | (refine ⟨rfl, rfl, ?_⟩; cases kk <;> rfl)

theorem declareConst_value (e : K .simple) (v : Val) (rest : List Tk) (s : KS)
    (value : e.exact 32 = some v) (noOr : e.NoIntegerOr) (ends : Ends rest)
    (toks : s.toks = .ident :: .eq :: (e.toks ++ rest)) :
    ∃ N t, ∀ n, N ≤ n → declareConst n s = some (some (v.constKind, v.constBits), t) ∧
      t.toks = rest ∧ t.errs = s.errs ∧ t.ub = s.ub := by
  have h0 : s.next.expect .eq = s.next.next := by
    unfold KS.expect
    rw [if_pos]
    simp [KS.tok, KS.next, toks]
  obtain ⟨_, N, hN⟩ := expr_end (parsesK e) (s := s.next.next) (rest := rest) value noOr
    (by simp [KS.next, toks]) (ends_const ends)
  refine ⟨N, go s.next.next rest v, fun n hn => ⟨?_, rfl, rfl, rfl⟩⟩
  unfold declareConst
  rw [h0, hN n hn 0]
  cases v <;> rfl

end Pas.KL
