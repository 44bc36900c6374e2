import Verif.Spec.AcceptProg

/-! Lemmas for C82: in constant expressions errors are not forgotten and nothing is read twice. -/
namespace Pas.Const
open Pas.Comp (Tk)

/-- There are not fewer errors and not more tokens. -/
structure Less (s s' : KS) : Prop where
  errs : s.errs ≤ s'.errs
  toks : s'.toks.length ≤ s.toks.length
  ub : s.ub = true → s'.ub = true

theorem Less.refl (s : KS) : Less s s := ⟨Nat.le_refl _, Nat.le_refl _, fun h => by first | exact h | simp [KS.undef, h]⟩
theorem Less.trans {a b c : KS} (h : Less a b) (h' : Less b c) : Less a c :=
  ⟨Nat.le_trans h.errs h'.errs, Nat.le_trans h'.toks h.toks, fun e => h'.ub (h.ub e)⟩
theorem less_next (s : KS) : Less s s.next := ⟨Nat.le_refl _, by simp [KS.next], fun h => h⟩
theorem less_err (s : KS) : Less s s.err := ⟨by simp [KS.err], Nat.le_refl _, fun h => h⟩
theorem less_undef (s : KS) (b : Bool) : Less s (s.undef b) := ⟨Nat.le_refl _, Nat.le_refl _, fun h => by first | exact h | simp [KS.undef, h]⟩
theorem less_expect (s : KS) (t : Tk) : Less s (s.expect t) := by
  unfold KS.expect; split
  · exact less_next s
  · exact less_err s
theorem less_if {s s1 s2 : KS} {P : Prop} [Decidable P] (h1 : Less s s1) (h2 : Less s s2) :
    Less s (if P then s1 else s2) := by split <;> assumption

theorem less_put (s : KS) (i : Nat) (f : Word → Word) : Less s (putWord s i f) := by
  unfold putWord; split
  · exact ⟨Nat.le_refl _, Nat.le_refl _, fun h => by first | exact h | simp [KS.undef, h]⟩
  · exact less_undef _ _

theorem less_bits (tm : Word) (tb : Int) : ∀ (n : Nat) (bm : Word) (a b : Int) (i : Nat) (s : KS),
    Less s (bitLoop tm tb n bm a b i s)
  | 0, _, _, _, _, s => less_undef s true
  | n + 1, bm, a, b, i, s => by
    simp only [bitLoop]
    refine less_if ?_ (Less.refl s)
    refine less_if ((less_put s i _).trans (less_bits tm tb n _ _ _ _ _)) ?_
    exact less_if ((less_put s i _).trans (less_bits tm tb n _ _ _ _ _)) (less_put s i _)

theorem less_add (a b c : Word) (s : KS) : Less s (addBits a b c s) := by
  simp only [addBits]
  exact less_if (less_put _ _ _) (less_bits _ _ _ _ _ _ _ _)

theorem less_sub (m : Word) (s : KS) : Less s (subSet m s) := by
  simp only [subSet]
  split
  · exact less_err s
  · split
    · split
      · split
        · exact (((less_next s).trans (less_next _)).trans (less_add _ _ _ _)).trans (less_next _)
        · exact ((less_next s).trans (less_next _)).trans (less_err _)
      · exact ((less_next s).trans (less_next _)).trans (less_err _)
    · exact (less_next s).trans (less_put _ _ _)

theorem less_subs (m : Word) : ∀ {n : Nat} {s s' : KS}, subSets m n s = some s' → Less s s'
  | 0, _, _, h => nomatch h
  | n + 1, s, s', h => by
    simp only [subSets] at h
    split at h
    · exact ((less_next s).trans (less_sub m _)).trans (less_subs m h)
    · cases h; exact Less.refl s

theorem less_set {m : Word} {n : Nat} {s s' : KS} (h : setFactor m n s = some s') : Less s s' := by
  have h0 : Less s ({ s with set := [0#16, 0#16, 0#16, 0#16] }.next) := ⟨(less_next s).errs, (less_next s).toks, (less_next s).ub⟩
  simp only [setFactor] at h
  split at h
  · cases h
    have := h0.trans (less_next _)
    exact ⟨this.errs, this.toks, this.ub⟩
  · obtain ⟨s1, h1, h2⟩ := Option.bind_eq_some_iff.mp h
    cases h2
    have := ((h0.trans (less_sub m _)).trans (less_subs m h1)).trans (less_expect _ (.other 0x5d))
    exact ⟨this.errs, this.toks, this.ub⟩

theorem less_std (c : Nat) (s : KS) : Less s (stdFunc c s) := by
  have h0 : Less s (if s.kind = .int ∨ s.kind = .char ∨ s.kind = .bool then s else s.err) :=
    less_if (Less.refl s) (less_err s)
  unfold stdFunc
  split
  · exact less_if (less_if ⟨Nat.le_refl _, Nat.le_refl _, fun h => by first | exact h | simp [KS.undef, h]⟩ (Less.refl s)) (less_err s)
  · split
    · exact less_if ⟨Nat.le_refl _, Nat.le_refl _, fun h => by first | exact h | simp [KS.undef, h]⟩ (less_err s)
    · split
      · exact less_if ⟨Nat.le_refl _, Nat.le_refl _, fun h => by first | exact h | simp [KS.undef, h]⟩ (less_err s)
      · dsimp only
        exact less_if ⟨h0.errs, h0.toks, h0.ub⟩ (less_if ⟨h0.errs, h0.toks, fun h => by simp [KS.undef, h0.ub h]⟩
          ⟨h0.errs, h0.toks, fun h => by simp [KS.undef, h0.ub h]⟩)

theorem less_addOp (op : Tk) (k : KK) (a : BitVec 32) (st : List Word) (s : KS) : Less s (addOp op k a st s).2 := by
  cases k
  · exact less_err s
  · exact less_undef s _
  · exact less_err s
  · exact Less.refl s
  · exact ⟨Nat.le_refl _, Nat.le_refl _, fun h => by first | exact h | simp [KS.undef, h]⟩

/-- What holds of the functions. -/
structure Lessen (n : Nat) : Prop where
  factor : ∀ m s s', constFactor n m s = some s' → Less s s'
  term : ∀ m s s', constTerm n m s = some s' → Less s s'
  terms : ∀ m k a s s', termLoop n m k a s = some s' → Less s s'
  simple : ∀ m s s', constSimple n m s = some s' → Less s s'
  simples : ∀ m k a st s s', simpleLoop n m k a st s = some s' → Less s s'
  expr : ∀ m s s', constExpr n m s = some s' → Less s s'

theorem lessen : ∀ n, Lessen n
  | 0 => ⟨fun _ _ _ h => by simp [constFactor] at h, fun _ _ _ h => by simp [constTerm] at h,
      fun _ _ _ _ _ h => by simp [termLoop] at h, fun _ _ _ h => by simp [constSimple] at h,
      fun _ _ _ _ _ _ h => by simp [simpleLoop] at h, fun _ _ _ h => by simp [constExpr] at h⟩
  | n + 1 => by
    have ih := lessen n
    constructor
    · intro m s s' h
      simp only [constFactor] at h
      split at h
      · cases h; exact ⟨(less_next s).errs, (less_next s).toks, (less_next s).ub⟩
      · split at h
        · exact less_set h
        · split at h
          · obtain ⟨s1, h1, h2⟩ := Option.bind_eq_some_iff.mp h
            cases h2
            have h3 := ((less_next s).trans (ih.factor _ _ _ h1)).trans
              (less_if (P := s1.kind ≠ .int ∧ s1.kind ≠ .bool) (less_err s1) (Less.refl s1))
            exact ⟨h3.errs, h3.toks, h3.ub⟩
          · split at h
            · obtain ⟨s1, h1, h2⟩ := Option.bind_eq_some_iff.mp h
              cases h2
              exact ((((less_next s).trans (less_expect _ _)).trans (ih.expr _ _ _ h1)).trans (less_std _ _)).trans
                (less_expect _ _)
            · cases hk : s.tok with
              | other c => rw [hk] at h; cases h
              | _ => rw [hk] at h; cases h; exact less_err s
    · intro m s s' h
      simp only [constTerm] at h
      obtain ⟨s1, h1, h2⟩ := Option.bind_eq_some_iff.mp h
      exact (ih.factor _ _ _ h1).trans (ih.terms _ _ _ _ _ h2)
    · intro m k a s s' h
      simp only [termLoop] at h
      split at h
      · obtain ⟨s1, h1, h2⟩ := Option.bind_eq_some_iff.mp h
        refine ((less_next s).trans (ih.factor _ _ _ h1)).trans (Less.trans ?_ (ih.terms _ _ _ _ _ h2))
        have h4 : Less s1 (if s1.kind ≠ k then s1.err else s1) := less_if (less_err _) (Less.refl _)
        refine Less.trans ?_ (less_undef _ _)
        exact less_if (h4.trans (less_err _)) h4
      · cases h; exact ⟨Nat.le_refl _, Nat.le_refl _, fun h => by first | exact h | simp [KS.undef, h]⟩
    · intro m s s' h
      simp only [constSimple] at h
      obtain ⟨s1, h1, h2⟩ := Option.bind_eq_some_iff.mp h
      have h3 := (less_if (P := decide (s.tok = .plus ∨ s.tok = .minus) = true) (less_next s) (Less.refl s)).trans
        (ih.term _ _ _ h1)
      split at h2
      · exact h3.trans (((less_err s1).trans (less_undef _ _)).trans (ih.simples _ _ _ _ _ _ h2))
      · split at h2
        · exact h3.trans ((less_undef _ _).trans (ih.simples _ _ _ _ _ _ h2))
        · exact h3.trans (ih.simples _ _ _ _ _ _ h2)
    · intro m k a st s s' h
      simp only [simpleLoop] at h
      split at h
      · obtain ⟨s1, h1, h2⟩ := Option.bind_eq_some_iff.mp h
        refine ((less_next s).trans (ih.term _ _ _ h1)).trans (Less.trans ?_ (ih.simples _ _ _ _ _ _ h2))
        exact (less_if (less_err _) (Less.refl _)).trans (less_addOp _ _ _ _ _)
      · cases h; exact ⟨Nat.le_refl _, Nat.le_refl _, fun h => by first | exact h | simp [KS.undef, h]⟩
    · intro m s s' h
      simp only [constExpr] at h
      obtain ⟨s1, h1, h2⟩ := Option.bind_eq_some_iff.mp h
      have h3 := ih.simple _ _ _ h1
      split at h2
      · obtain ⟨s2, h4, h5⟩ := Option.bind_eq_some_iff.mp h2
        have h6 : Less s (if s2.kind ≠ s1.kind then s2.err else s2) :=
          (h3.trans (ih.simple _ _ _ h4)).trans (less_if (less_err _) (Less.refl _))
        split at h5
        · cases h5; exact ⟨h6.errs, h6.toks, h6.ub⟩
        · cases h5
          have := h6.trans (less_err _)
          exact ⟨this.errs, this.toks, this.ub⟩
      · cases h2; exact h3

/-! ### What has been read -/

open Pas.Accept (ConstForm ConstMul ConstAdd ConstFn ConstTk)
open Pas.Src (Lvl Fn)

theorem arith_toInt {i : Int} (h : (arith i).2 = false) : (arith i).1.toInt = i := by
  simp only [arith, decide_eq_false_iff_not, not_or, Int.not_lt] at h ⊢
  exact BitVec.toInt_ofInt_eq_self (by decide) (by omega) (by omega)

theorem ofInt_toInt {i : Int} (h : -2147483648 ≤ i) (h' : i ≤ 2147483647) : (BitVec.ofInt 32 i).toInt = i :=
  BitVec.toInt_ofInt_eq_self (by decide) (by omega) (by omega)

theorem int_bounds (a : BitVec 32) : -2147483648 ≤ a.toInt ∧ a.toInt ≤ 2147483647 := by
  have h1 := BitVec.le_toInt a
  have h2 := BitVec.toInt_lt (x := a)
  omega

theorem tmod_bounds (a b : BitVec 32) : -2147483648 ≤ a.toInt.tmod b.toInt ∧ a.toInt.tmod b.toInt ≤ 2147483647 := by
  obtain ⟨h1, h2⟩ := int_bounds a
  have h3 : (a.toInt.tmod b.toInt).natAbs ≤ a.toInt.natAbs := by
    rw [Int.natAbs_tmod]; exact Nat.mod_le _ _
  rcases Int.le_total 0 a.toInt with h | h
  · have := Int.tmod_nonneg b.toInt h
    omega
  · have : 0 ≤ -(a.toInt.tmod b.toInt) := by
      rw [← Int.neg_tmod]; exact Int.tmod_nonneg _ (by omega)
    omega

theorem shift_small {b : BitVec 32} (h : ¬ (b.toInt < 0 ∨ 31 < b.toInt)) : b.toNat < 32 := by
  rw [not_or] at h
  have h2 := BitVec.toInt_eq_toNat_cond b
  have := b.isLt
  split at h2 <;> omega

theorem shr_toInt (a : BitVec 32) (n : Nat) : (BitVec.ofInt 32 (a.toInt / 2 ^ n)).toInt = a.toInt / 2 ^ n := by
  have h : a.toInt / 2 ^ n = (a.sshiftRight n).toInt := by
    rw [BitVec.toInt_sshiftRight, Int.shiftRight_eq_div_pow]; norm_cast
  rw [h, BitVec.ofInt_toInt]

theorem mul_val {op : Tk} {k : KK} {a b : BitVec 32} (h : mulAllowed op k = true) (hk : k ≠ .set)
    (hu : (mulOp op k a b).2.1 = false) : ConstMul op k a b (mulOp op k a b).1 := by
  cases op with
  | mul => cases k <;> simp_all [mulAllowed, mulOp, ConstMul]; exact arith_toInt hu
  | div_ =>
    cases k <;> simp_all [mulAllowed]
    simp only [mulOp, ne_eq, not_true, if_false] at hu ⊢
    split at hu
    · cases hu
    · rename_i hb
      rw [if_neg hb]
      exact ⟨hb, arith_toInt hu⟩
  | mod_ =>
    cases k <;> simp_all [mulAllowed]
    simp only [mulOp, ne_eq, not_true, if_false] at hu ⊢
    split at hu
    · cases hu
    · rename_i hb
      rw [if_neg hb]
      obtain ⟨h1, h2⟩ := tmod_bounds a b
      exact ⟨hb, ofInt_toInt h1 h2⟩
  | and_ => cases k <;> simp_all [mulAllowed, mulOp, ConstMul]
  | shl =>
    cases k <;> simp_all [mulAllowed]
    simp only [mulOp, ne_eq, not_true, if_false] at hu ⊢
    split at hu
    · cases hu
    · rename_i hb
      rw [if_neg hb]
      exact ⟨shift_small hb, rfl⟩
  | shr =>
    cases k <;> simp_all [mulAllowed]
    simp only [mulOp, ne_eq, not_true, if_false] at hu ⊢
    split at hu
    · cases hu
    · rename_i hb
      rw [if_neg hb]
      exact ⟨shift_small hb, shr_toInt a b.toNat⟩
  | _ => simp [mulAllowed] at h

theorem add_val {op : Tk} {k : KK} {a : BitVec 32} {st : List Word} {s : KS} (h : addAllowed op k = true)
    (hk : k ≠ .set) (hu : (addOp op k a st s).2.ub = false) :
    ConstAdd op k a s.int (addOp op k a st s).1 ∧ (addOp op k a st s).2.toks = s.toks := by
  cases op with
  | plus =>
    cases k <;> simp_all [addAllowed]
    simp only [addOp, KS.undef, Bool.or_eq_false_iff, if_true] at hu ⊢
    exact ⟨arith_toInt hu.2, trivial⟩
  | minus =>
    cases k <;> simp_all [addAllowed]
    simp only [addOp, KS.undef, Bool.or_eq_false_iff, reduceCtorEq, if_false] at hu ⊢
    exact ⟨arith_toInt hu.2, trivial⟩
  | or_ =>
    cases k <;> simp_all [addAllowed]
    · simp only [addOp, KS.undef, Bool.or_eq_false_iff, reduceCtorEq, if_false] at hu ⊢
      exact ⟨arith_toInt hu.2, trivial⟩
    · exact ⟨rfl, rfl⟩
  | symdiff => cases k <;> simp_all [addAllowed]
  | _ => simp [addAllowed] at h

/-- Read without an error, and not a set. -/
def Reads (l : Lvl) (s s' : KS) : Prop := s'.errs = s.errs → s'.ub = false → s'.kind ≠ .set →
  ∃ ts, s.toks = ts ++ s'.toks ∧ ConstForm l ts s'.kind s'.int

theorem toks_next {s : KS} {t : Tk} (h : s.tok = t) (ht : t ≠ .period) : s.toks = t :: s.next.toks := by
  unfold KS.tok at h
  cases hs : s.toks with
  | nil => rw [hs] at h; exact absurd h.symm ht
  | cons x l => rw [hs] at h; cases h; simp [KS.next, hs]

theorem no_ub {s s' : KS} (h : Less s s') (hu : s'.ub = false) : s.ub = false := by
  cases hs : s.ub with
  | false => rfl
  | true => rw [h.ub hs] at hu; cases hu

theorem expect_read {s : KS} {t : Tk} (h : (s.expect t).errs = s.errs) : s.tok = t ∧ s.expect t = s.next := by
  unfold KS.expect at h ⊢
  split at h
  · rename_i ht; exact ⟨ht, by rw [if_pos ht]⟩
  · simp [KS.err] at h

/-- What holds of the functions. -/
structure KnownC (n : Nat) : Prop where
  factor : ∀ m s s', constFactor n m s = some s' → Reads .factor s s'
  term : ∀ m s s', constTerm n m s = some s' → Reads .term s s'
  terms : ∀ m k a s s', termLoop n m k a s = some s' → s'.kind = k ∧ (s'.errs = s.errs → s'.ub = false → k ≠ .set →
    ∀ ts0, ConstForm .term ts0 k a → ∃ ts, s.toks = ts ++ s'.toks ∧ ConstForm .term (ts0 ++ ts) k s'.int)
  simple : ∀ m s s', constSimple n m s = some s' → Reads .simple s s'
  simples : ∀ m k a st s s', simpleLoop n m k a st s = some s' → s'.kind = k ∧ (s'.errs = s.errs → s'.ub = false →
    k ≠ .set → ∀ ts0, ConstForm .simple ts0 k a →
    ∃ ts, s.toks = ts ++ s'.toks ∧ ConstForm .simple (ts0 ++ ts) k s'.int)
  expr : ∀ m s s', constExpr n m s = some s' → Reads .simple s s'

/-- An operator is no operand. -/
theorem simple_rel {n : Nat} {m : Word} {s s' : KS} {k : KK} (hr : relAllowed s.tok k = true)
    (h : constSimple n m s = some s') : s.errs < s'.errs := by
  have hops : s.tok = .eq ∨ s.tok = .ne ∨ s.tok = .lt ∨ s.tok = .le ∨ s.tok = .gt ∨ s.tok = .ge ∨ s.tok = .in_ := by
    revert hr
    cases s.tok <;> simp [relAllowed, isRel]
  match n, h with
  | 0, h => simp [constSimple] at h
  | n + 1, h =>
    simp only [constSimple] at h
    have hsign : ¬ (s.tok = .plus ∨ s.tok = .minus) := by
      rcases hops with e | e | e | e | e | e | e <;> rw [e] <;> simp
    rw [if_neg (by simpa using hsign)] at h
    obtain ⟨s1, h1, h2⟩ := Option.bind_eq_some_iff.mp h
    have key : s.errs < s1.errs := by
      match n, h1 with
      | 0, h1 => simp [constTerm] at h1
      | n + 1, h1 =>
        simp only [constTerm] at h1
        obtain ⟨s2, h3, h4⟩ := Option.bind_eq_some_iff.mp h1
        have l := ((lessen n).terms _ _ _ _ _ h4).errs
        match n, h3 with
        | 0, h3 => simp [constFactor] at h3
        | n + 1, h3 =>
          simp only [constFactor] at h3
          rcases hops with e | e | e | e | e | e | e <;> rw [e] at h3 <;>
            simp [literal, stdCodes] at h3 <;> subst h3 <;> simp only [KS.err] at l <;> omega
    split at h2
    · have l := ((lessen n).simples _ _ _ _ _ _ h2).errs
      simp only [KS.undef, KS.err] at l
      omega
    · split at h2
      · have l := ((lessen n).simples _ _ _ _ _ _ h2).errs
        simp only [KS.undef] at l
        omega
      · have l := ((lessen n).simples _ _ _ _ _ _ h2).errs
        omega

theorem std_val {c : Nat} {s s' : KS} (hc : c ∈ stdCodes) (h : stdFunc c s = s') (he : s'.errs = s.errs)
    (hu : s'.ub = false) : s.kind ≠ .set ∧ s'.toks = s.toks ∧ ∃ f : Fn, f.tk = .other c ∧
      ConstFn f s.kind s.int s'.kind s'.int := by
  simp only [stdCodes, List.mem_cons, List.not_mem_nil, or_false] at hc
  have ord : ∀ {c : KS}, (if s.kind = .int ∨ s.kind = .char ∨ s.kind = .bool then s else s.err) = c → c.errs = s.errs →
      c = s ∧ s.kind ≠ .set := by
    intro c hc hce
    split at hc
    · rename_i hk
      exact ⟨hc.symm, fun e => by rw [e] at hk; simp at hk⟩
    · subst hc; simp [KS.err] at hce
  rcases hc with rfl | rfl | rfl | rfl | rfl | rfl
  · simp only [stdFunc, if_true] at h
    split at h
    · rename_i hi
      refine ⟨by simp [hi], ?_⟩
      split at h
      · rename_i hn
        subst h
        refine ⟨rfl, .abs, rfl, ?_⟩
        simp only [KS.undef, Bool.or_eq_false_iff] at hu
        show ConstFn .abs s.kind s.int s.kind (arith (-s.int.toInt)).1
        rw [hi]
        refine ⟨rfl, ?_⟩
        rw [arith_toInt hu.2]; omega
      · rename_i hn
        subst h
        refine ⟨rfl, .abs, rfl, ?_⟩
        rw [hi]
        exact ⟨rfl, by omega⟩
    · subst h; simp [KS.err] at he
  · simp only [stdFunc, Nat.reduceEqDiff, if_false, if_true] at h
    split at h
    · rename_i hi
      subst h
      refine ⟨by simp [hi], rfl, .sqr, rfl, ?_⟩
      simp only [KS.undef, Bool.or_eq_false_iff] at hu
      show ConstFn .sqr s.kind s.int s.kind (arith (s.int.toInt * s.int.toInt)).1
      rw [hi]
      exact ⟨rfl, arith_toInt hu.2⟩
    · subst h; simp [KS.err] at he
  · simp only [stdFunc, Nat.reduceEqDiff, if_false, if_true] at h
    split at h
    · rename_i hi
      subst h
      refine ⟨by simp [hi], rfl, .chr, rfl, ?_⟩
      rw [hi]
      exact ⟨rfl, rfl⟩
    · subst h; simp [KS.err] at he
  · simp only [stdFunc, Nat.reduceEqDiff, if_false, if_true] at h
    subst h
    obtain ⟨e, hk'⟩ := ord rfl he
    rw [e]
    exact ⟨hk', rfl, .ord, rfl, rfl, rfl⟩
  · simp only [stdFunc, Nat.reduceEqDiff, if_false, if_true] at h
    subst h
    obtain ⟨e, hk'⟩ := ord rfl he
    rw [e] at hu ⊢
    refine ⟨hk', rfl, .pred, rfl, ?_⟩
    simp only [KS.undef, Bool.or_eq_false_iff] at hu
    exact ⟨rfl, arith_toInt hu.2⟩
  · simp only [stdFunc, Nat.reduceEqDiff, if_false] at h
    subst h
    obtain ⟨e, hk'⟩ := ord rfl he
    rw [e] at hu ⊢
    refine ⟨hk', rfl, .succ, rfl, ?_⟩
    simp only [KS.undef, Bool.or_eq_false_iff] at hu
    exact ⟨rfl, arith_toInt hu.2⟩

theorem knownC : ∀ n, KnownC n
  | 0 => ⟨fun _ _ _ h => by simp [constFactor] at h, fun _ _ _ h => by simp [constTerm] at h,
      fun _ _ _ _ _ h => by simp [termLoop] at h, fun _ _ _ h => by simp [constSimple] at h,
      fun _ _ _ _ _ _ h => by simp [simpleLoop] at h, fun _ _ _ h => by simp [constExpr] at h⟩
  | n + 1 => by
    have ih := knownC n
    have le := lessen n
    constructor
    · intro m s s' h he hu hk
      simp only [constFactor] at h
      split at h
      · rename_i k v hl
        cases h
        cases ht : s.tok with
        | int x => rw [ht] at hl; cases hl; exact ⟨[.int v], toks_next ht (by simp), .int⟩
        | char x => rw [ht] at hl; cases hl; exact ⟨[.char v], toks_next ht (by simp), .char⟩
        | bool x => rw [ht] at hl; cases hl; exact ⟨[.bool v], toks_next ht (by simp), .bool⟩
        | _ => rw [ht] at hl; cases hl
      · split at h
        · exfalso
          apply hk
          simp only [setFactor] at h
          split at h
          · cases h; rfl
          · obtain ⟨s1, h1, h2⟩ := Option.bind_eq_some_iff.mp h
            cases h2; rfl
        · split at h
          · rename_i hnot
            obtain ⟨s1, h1, h2⟩ := Option.bind_eq_some_iff.mp h
            cases h2
            have l1 := (le.factor _ _ _ h1).errs
            by_cases hb : s1.kind ≠ .int ∧ s1.kind ≠ .bool
            · rw [if_pos hb] at he
              simp only [KS.err, KS.next] at he l1
              omega
            · rw [if_neg hb] at he hu hk ⊢
              obtain ⟨ts, r, f⟩ := ih.factor _ _ _ h1 he hu hk
              refine ⟨.not_ :: ts, by rw [toks_next hnot (by simp), r]; rfl, .not f ?_⟩
              simp only [ne_eq, Classical.not_and_iff_not_or_not, Decidable.not_not] at hb
              exact hb
          · split at h
            · rename_i c hf
              obtain ⟨s1, h1, h2⟩ := Option.bind_eq_some_iff.mp h
              cases h2
              have hc := List.mem_of_find?_eq_some hf
              have ht : s.tok = .other c := by simpa using List.find?_some hf
              have l1 := (less_expect s.next .lparen).errs
              have l2 := (le.expr _ _ _ h1).errs
              have l3 := (less_std c s1).errs
              have l4 := (less_expect (stdFunc c s1) .rparen).errs
              have e0 : s.next.errs = s.errs := rfl
              obtain ⟨x1, x2⟩ := expect_read (s := s.next) (t := .lparen) (by omega)
              obtain ⟨y1, y2⟩ := expect_read (s := stdFunc c s1) (t := .rparen) (by omega)
              rw [y2] at hu hk ⊢
              obtain ⟨z1, z2, f, hft, hfv⟩ := std_val hc rfl (by omega) hu
              obtain ⟨ts, r, hts⟩ := ih.expr _ _ _ h1 (by omega) (no_ub (less_std c s1) hu) z1
              rw [x2] at r
              refine ⟨f.tk :: .lparen :: (ts ++ [.rparen]), ?_, .call hts hfv⟩
              have y3 := toks_next y1 (by simp)
              rw [z2] at y3
              rw [toks_next ht (by simp), toks_next x1 (by simp), r, y3, hft]
              simp
            · cases ht : s.tok with
              | other c => rw [ht] at h; cases h
              | _ => rw [ht] at h; cases h; simp [KS.err] at he
    · intro m s s' h he hu hk
      simp only [constTerm] at h
      obtain ⟨s1, h1, h2⟩ := Option.bind_eq_some_iff.mp h
      have l1 := (le.factor _ _ _ h1).errs
      have l2 := le.terms _ _ _ _ _ h2
      have l3 := l2.errs
      obtain ⟨k2, ok2⟩ := ih.terms _ _ _ _ _ h2
      rw [k2] at hk ⊢
      obtain ⟨ts, r, f⟩ := ih.factor _ _ _ h1 (by omega) (no_ub l2 hu) hk
      obtain ⟨us, r2, f2⟩ := ok2 (by omega) hu hk ts (.factor f)
      exact ⟨ts ++ us, by rw [r, r2, List.append_assoc], f2⟩
    · intro m k a s s' h
      simp only [termLoop] at h
      split at h
      · rename_i ha
        obtain ⟨s1, h1, h2⟩ := Option.bind_eq_some_iff.mp h
        obtain ⟨k2, ok2⟩ := ih.terms _ _ _ _ _ h2
        refine ⟨k2, fun he hu hk ts0 f0 => ?_⟩
        have l1 := (le.factor _ _ _ h1).errs
        have l2 := le.terms _ _ _ _ _ h2
        have l3 := l2.errs
        have e0 : s.next.errs = s.errs := rfl
        have hs1 : s1.kind = k := by
          by_cases hs : s1.kind = k
          · exact hs
          · rw [if_pos (show s1.kind ≠ k from hs)] at l3
            split at l3 <;> simp only [KS.undef, KS.err] at l3 <;> omega
        rw [if_neg (show ¬ s1.kind ≠ k by simpa using hs1)] at ok2 l3 l2
        have hne : (mulOp s.tok k a s1.int).2.2 = false := by
          cases hr : (mulOp s.tok k a s1.int).2.2 with
          | false => rfl
          | true => rw [hr] at l3; simp only [KS.undef, KS.err, if_true] at l3; omega
        rw [hne, if_neg (by simp)] at ok2 l3 l2
        have hub := no_ub l2 hu
        simp only [KS.undef, Bool.or_eq_false_iff] at hub
        have e1 : (s1.undef (mulOp s.tok k a s1.int).2.1).errs = s1.errs := rfl
        obtain ⟨ts, r, f⟩ := ih.factor _ _ _ h1 (by omega) hub.1 (by rw [hs1]; exact hk)
        rw [hs1] at f
        have hop : s.tok ≠ .period := fun e => by rw [e] at ha; simp [mulAllowed] at ha
        obtain ⟨us, r2, f2⟩ := ok2 (by omega) hu hk _ (.mul f0 f (mul_val ha hk hub.2))
        refine ⟨s.tok :: (ts ++ us), ?_, by simpa using f2⟩
        rw [toks_next rfl hop, r, show s1.toks = us ++ s'.toks from r2]
        simp
      · cases h
        exact ⟨rfl, fun _ _ _ ts0 f0 => ⟨[], rfl, by simpa using f0⟩⟩
    · intro m s s' h he hu hk
      simp only [constSimple] at h
      obtain ⟨s1, h1, h2⟩ := Option.bind_eq_some_iff.mp h
      have l1 := (le.term _ _ _ h1).errs
      have e0 : (if decide (s.tok = .plus ∨ s.tok = .minus) = true then s.next else s).errs = s.errs := by
        split <;> rfl
      split at h2
      · exfalso
        have := (le.simples _ _ _ _ _ _ h2).errs
        simp only [KS.undef, KS.err] at this
        omega
      · rename_i hsg
        simp only [decide_eq_true_eq, not_and, ne_eq, Decidable.not_not] at hsg
        split at h2
        · rename_i hm
          have l2 := le.simples _ _ _ _ _ _ h2
          have l3 := l2.errs
          have e1 : (s1.undef (arith (-s1.int.toInt)).2).errs = s1.errs := rfl
          obtain ⟨k2, ok2⟩ := ih.simples _ _ _ _ _ _ h2
          rw [k2] at hk ⊢
          have hub := no_ub l2 hu
          simp only [KS.undef, Bool.or_eq_false_iff] at hub
          obtain ⟨ts, r, f⟩ := ih.term _ _ _ h1 (by omega) hub.1 hk
          have hi := hsg (Or.inr hm)
          rw [hi] at f ok2 ⊢
          obtain ⟨us, r2, f2⟩ := ok2 (by omega) hu (by simp) _ (.minus f (arith_toInt hub.2))
          rw [if_pos (by simp [hm])] at r
          refine ⟨.minus :: (ts ++ us), ?_, f2⟩
          rw [toks_next hm (by simp), r, show s1.toks = us ++ s'.toks from r2]
          simp
        · rename_i hm
          have l2 := le.simples _ _ _ _ _ _ h2
          have l3 := l2.errs
          obtain ⟨k2, ok2⟩ := ih.simples _ _ _ _ _ _ h2
          rw [k2] at hk ⊢
          obtain ⟨ts, r, f⟩ := ih.term _ _ _ h1 (by omega) (no_ub l2 hu) hk
          by_cases hp : s.tok = .plus
          · have hi := hsg (Or.inl hp)
            rw [hi] at f ok2 ⊢
            obtain ⟨us, r2, f2⟩ := ok2 (by omega) hu (by simp) _ (.plus f)
            rw [if_pos (by simp [hp])] at r
            refine ⟨.plus :: (ts ++ us), ?_, f2⟩
            rw [toks_next hp (by simp), r, r2]
            simp
          · obtain ⟨us, r2, f2⟩ := ok2 (by omega) hu hk _ (.term f)
            rw [if_neg (by simp [hp, hm])] at r
            exact ⟨ts ++ us, by rw [r, r2, List.append_assoc], f2⟩
    · intro m k a st s s' h
      simp only [simpleLoop] at h
      split at h
      · rename_i ha
        obtain ⟨s1, h1, h2⟩ := Option.bind_eq_some_iff.mp h
        obtain ⟨k2, ok2⟩ := ih.simples _ _ _ _ _ _ h2
        refine ⟨k2, fun he hu hk ts0 f0 => ?_⟩
        have l1 := (le.term _ _ _ h1).errs
        have l2 := le.simples _ _ _ _ _ _ h2
        have l3 := l2.errs
        have e0 : s.next.errs = s.errs := rfl
        have l4 := (less_addOp s.tok k a st (if s1.kind ≠ k then s1.err else s1)).errs
        have hs1 : s1.kind = k := by
          by_cases hs : s1.kind = k
          · exact hs
          · rw [if_pos (show s1.kind ≠ k from hs)] at l3 l4
            simp only [KS.err] at l4 l3
            omega
        rw [if_neg (show ¬ s1.kind ≠ k by simpa using hs1)] at ok2 l3 l2 l4
        have hub := no_ub l2 hu
        obtain ⟨va, vt⟩ := add_val ha hk hub
        have hub1 := no_ub (less_addOp s.tok k a st s1) hub
        obtain ⟨ts, r, f⟩ := ih.term _ _ _ h1 (by omega) hub1 (by rw [hs1]; exact hk)
        rw [hs1] at f
        have hop : s.tok ≠ .period := fun e => by rw [e] at ha; simp [addAllowed] at ha
        obtain ⟨us, r2, f2⟩ := ok2 (by omega) hu hk _ (.add f0 f va)
        refine ⟨s.tok :: (ts ++ us), ?_, by simpa using f2⟩
        rw [vt] at r2
        rw [toks_next rfl hop, r, r2]
        simp
      · cases h
        exact ⟨rfl, fun _ _ _ ts0 f0 => ⟨[], rfl, by simpa using f0⟩⟩
    · intro m s s' h he hu hk
      simp only [constExpr] at h
      obtain ⟨s1, h1, h2⟩ := Option.bind_eq_some_iff.mp h
      have l1 := (le.simple _ _ _ h1).errs
      split at h2
      · rename_i hr
        exfalso
        obtain ⟨s2, h4, h5⟩ := Option.bind_eq_some_iff.mp h2
        have l2 := simple_rel hr h4
        have l3 : s2.errs ≤ (if s2.kind ≠ s1.kind then s2.err else s2).errs := by
          split
          · simp [KS.err]
          · exact Nat.le_refl _
        split at h5
        · cases h5; have := Nat.le_trans l3 (Nat.le_of_eq he); omega
        · cases h5
          simp only [KS.err] at he l3
          omega
      · cases h2
        exact ih.simple _ _ _ h1 he hu hk

/-- A constant that is defined without an error: its name, an equal sign, and an expression with its value. -/
theorem declare_read {n : Nat} {s s' : KS} {k : KK} {v : BitVec 32}
    (h : declareConst n s = some (some (k, v), s')) (he : s'.errs = s.errs) (hu : s'.ub = false) :
    s.next.tok = .eq ∧ ∃ ts, s.next.next.toks = ts ++ s'.toks ∧ ConstForm .simple ts k v := by
  simp only [declareConst] at h
  obtain ⟨s1, h1, h2⟩ := Option.bind_eq_some_iff.mp h
  have l := ((lessen n).expr _ _ _ h1).errs
  have l1 := (less_expect s.next .eq).errs
  have e0 : s.next.errs = s.errs := rfl
  have e : s' = s1 ∧ k = s1.kind ∧ v = s1.int ∧ s1.kind ≠ .set := by
    cases hk : s1.kind <;> rw [hk] at h2 <;> cases h2 <;> exact ⟨rfl, rfl, rfl, by simp⟩
  obtain ⟨rfl, hk', rfl, hk⟩ := e
  subst hk'
  obtain ⟨x1, x2⟩ := expect_read (s := s.next) (t := .eq) (by omega)
  obtain ⟨ts, r, f⟩ := (knownC n).expr _ _ _ h1 (by omega) hu hk
  rw [x2] at r
  exact ⟨x1, ts, r, f⟩

end Pas.Const
