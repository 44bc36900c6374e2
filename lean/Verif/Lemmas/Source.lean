import Verif.Spec.Storage
import Verif.Lemmas.LoadStore

/-! Values and their words. -/
namespace Pas.Src
open Pas.Spec

/-- A value is in the range of its type. -/
def Val.Ranged : Val → Prop
  | .num t i => wrap t i = i
  | _ => True

theorem wrap_signed {t : IntTy} (h : t.signed = true) (i : Int) : wrap t i = Int.bmod i 65536 := by
  simp [wrap, h]

theorem wrap_unsigned {t : IntTy} (h : t.signed = false) (i : Int) : wrap t i = i % 65536 := by
  simp [wrap, h]

theorem wrap_wrap (t : IntTy) (i : Int) : wrap t (wrap t i) = wrap t i := by
  unfold wrap
  split
  · exact Int.bmod_bmod
  · omega

theorem ofInt_wrap (t : IntTy) (i : Int) : BitVec.ofInt 16 (wrap t i) = BitVec.ofInt 16 i := by
  apply BitVec.eq_of_toInt_eq
  rw [BitVec.toInt_ofInt, BitVec.toInt_ofInt]
  unfold wrap
  split
  · exact Int.bmod_bmod
  · exact Int.emod_bmod i 65536

theorem ofInt_ofBits (t : IntTy) (w : Word) : BitVec.ofInt 16 (ofBits t w) = w := by
  unfold ofBits
  split
  · simp
  · simp

theorem wrap_ofBits (t : IntTy) (w : Word) : wrap t (ofBits t w) = ofBits t w := by
  unfold wrap ofBits
  have h := w.isLt
  split
  · rw [BitVec.toInt_eq_toNat_bmod, Int.bmod_bmod]
  · omega

theorem toInt_num {t : IntTy} (h : t.signed = true) (i : Int) :
    (BitVec.ofInt 16 i).toInt = wrap t i := by
  rw [wrap_signed h, BitVec.toInt_ofInt]

theorem toNat_num {t : IntTy} (h : t.signed = false) (i : Int) :
    ((BitVec.ofInt 16 i).toNat : Int) = wrap t i := by
  rw [wrap_unsigned h, BitVec.toNat_ofInt]
  omega

theorem unsigned_nonneg {t : IntTy} (h : t.signed = false) (i : Int) : 0 ≤ wrap t i := by
  rw [wrap_unsigned h]; omega

/-- Equal words are equal values. -/
theorem word_inj (t : IntTy) (a b : Int) :
    BitVec.ofInt 16 a = BitVec.ofInt 16 b ↔ wrap t a = wrap t b := by
  constructor
  · intro h
    cases ht : t.signed
    · rw [← toNat_num ht, ← toNat_num ht, h]
    · rw [← toInt_num ht, ← toInt_num ht, h]
  · intro h
    rw [← ofInt_wrap t a, ← ofInt_wrap t b, h]

theorem toInt_eq_iff (a b : Word) : a.toInt = b.toInt ↔ a = b :=
  ⟨BitVec.eq_of_toInt_eq, fun h => by rw [h]⟩

/-- The operation of a multiplying operator. -/
def mulO : MulOp → Ty → Op
  | .mul, .num t => if t.signed then .mul else .umul
  | .div, .num t => if t.signed then .div_ else .udiv
  | .mod, .num t => if t.signed then .mod_ else .umod
  | .shl, _ => .sll
  | .shr, .num t => if t.signed then .sra else .srl
  | _, _ => .and_

def addO : AddOp → Op
  | .add => .add
  | .sub => .sub
  | .or => .or_
  | .bar => .or_
  | .xor => .xor_

/-- The operation of a relational operator on values of the types. -/
def relO : RelOp → Ty → Ty → Op
  | op, .num t, .num t' =>
    let signed := match relNum t t' with
      | some t => t.signed
      | none => true
    match op with
    | .eq => .equ
    | .ne => .neq
    | .lt => if signed then .lt else .ult
    | .le => if signed then .lte else .ulte
    | .gt => if signed then .gt else .ugt
    | .ge => if signed then .gte else .ugte
  | .eq, _, _ => .equ
  | _, _, _ => .neq

theorem bool_word (b : Bool) : (Val.bool b).word = pasBool b := by cases b <;> rfl

theorem pasBool_congr {p q : Prop} [Decidable p] [Decidable q] (h : p ↔ q) :
    pasBool (decide p) = pasBool (decide q) := by simp [h]

theorem bool_inj (a b : Bool) : (Val.bool a).word = (Val.bool b).word ↔ a = b := by
  cases a <;> cases b <;> decide

theorem char_inj (a b : Byte) : (Val.char a).word = (Val.char b).word ↔ a = b := by
  constructor
  · intro h
    have := congrArg BitVec.toNat h
    simp [Val.word] at this
    apply BitVec.eq_of_toNat_eq; omega
  · intro h; rw [h]

theorem mul_value {op : MulOp} {a b v : Val} {ty : Ty} (ht : mulType op a.ty b.ty = some ty)
    (ha : a.Ranged) (hb : b.Ranged) (hv : mulVal op a b = some v) :
    ∃ f, binF (mulO op ty) = some f ∧ f a.word b.word = .ok v.word ∧ v.Ranged ∧ v.ty = ty := by
  cases a with
  | char _ => cases op <;> simp [mulVal] at hv
  | bool a =>
    cases b with
    | bool b =>
      cases op <;> simp [mulVal] at hv <;> subst hv <;> simp [mulType, Val.ty] at ht <;> subst ht <;>
        exact ⟨_, rfl, by cases a <;> cases b <;> rfl, trivial, rfl⟩
    | _ => cases op <;> simp [mulVal] at hv
  | num t a =>
    cases b with
    | num t' b =>
      have hty : ty = .num t := by
        cases op <;> simp [mulType, Val.ty] at ht <;> first | exact ht.symm | exact ht.2.symm
      subst hty
      simp only [Val.Ranged] at ha hb
      generalize hwa : (Val.num t a).word = wa
      generalize hwb : (Val.num t' b).word = wb
      have hwa : BitVec.ofInt 16 a = wa := hwa
      have hwb : BitVec.ofInt 16 b = wb := hwb
      have sa : t.signed = true → wa.toInt = a := fun h => by rw [← hwa, toInt_num h, ha]
      have sb : t.signed = true → wb.toInt = wrap t b := fun h => by rw [← hwb, toInt_num h]
      have ua : t.signed = false → (wa.toNat : Int) = a := fun h => by rw [← hwa, toNat_num h, ha]
      have ub : t.signed = false → (wb.toNat : Int) = wrap t b := fun h => by
        rw [← hwb, toNat_num h]
      cases op with
      | mul =>
        simp only [mulVal] at hv
        split at hv
        · next hc =>
          cases hv
          simp only [mulO]
          cases hsg : t.signed
          · refine ⟨_, rfl, ?_, wrap_wrap _ _, rfl⟩
            have hc : a * wrap t b < 2147483648 := by simpa [hsg] using hc
            have e1 := ua hsg
            have e2 := ub hsg
            rw [← e1, ← e2, ← Int.natCast_mul] at hc
            simp only [Val.word]
            rw [if_pos (by omega), ofInt_wrap, ← e1, ← e2, ← Int.natCast_mul, BitVec.ofInt_natCast]
          · refine ⟨_, rfl, ?_, wrap_wrap _ _, rfl⟩
            simp only [Val.word]
            rw [sa hsg, sb hsg, ofInt_wrap]
        · cases hv
      | div =>
        simp only [mulVal] at hv
        split at hv
        · cases hv
        · next hc =>
          cases hv
          simp only [mulO]
          cases hsg : t.signed
          · refine ⟨_, rfl, ?_, wrap_wrap _ _, rfl⟩
            have e1 := ua hsg
            have e2 := ub hsg
            rw [← e2] at hc
            simp only [Val.word]
            rw [if_neg (by omega), ofInt_wrap, ← e1, ← e2, ← Int.ofNat_tdiv, BitVec.ofInt_natCast]
          · refine ⟨_, rfl, ?_, wrap_wrap _ _, rfl⟩
            simp only [Val.word]
            rw [sa hsg, sb hsg, if_neg hc, ofInt_wrap]
      | mod =>
        simp only [mulVal] at hv
        split at hv
        · cases hv
        · next hc =>
          cases hv
          simp only [mulO]
          cases hsg : t.signed
          · refine ⟨_, rfl, ?_, wrap_wrap _ _, rfl⟩
            have e1 := ua hsg
            have e2 := ub hsg
            rw [← e2] at hc
            simp only [Val.word]
            rw [if_neg (by omega), ofInt_wrap, ← e1, ← e2, ← Int.ofNat_tmod, BitVec.ofInt_natCast]
          · refine ⟨_, rfl, ?_, wrap_wrap _ _, rfl⟩
            simp only [Val.word]
            rw [sa hsg, sb hsg, if_neg hc, ofInt_wrap]
      | and =>
        cases hv
        exact ⟨_, rfl, by simp only [Val.word, ofInt_ofBits, hwa, hwb], wrap_ofBits _ _, rfl⟩
      | amp =>
        cases hv
        exact ⟨_, rfl, by simp only [Val.word, ofInt_ofBits, hwa, hwb], wrap_ofBits _ _, rfl⟩
      | shl =>
        simp only [mulVal] at hv
        split at hv
        · next hc =>
          cases hv
          refine ⟨_, rfl, ?_, wrap_wrap _ _, rfl⟩
          have e : wb.toNat = b.toNat := by
            rw [← hwb, BitVec.toNat_ofInt]; omega
          have e' : wb.toInt = b := by rw [BitVec.toInt_eq_toNat_cond]; split <;> omega
          simp only [Val.word]
          rw [if_pos (by simp [shiftOk, e']; omega), e, ofInt_wrap, BitVec.ofInt_mul,
            BitVec.ofInt_toInt, ← hwa, ← BitVec.ofInt_mul]
        · cases hv
      | shr =>
        simp only [mulVal] at hv
        split at hv
        · next hc =>
          cases hv
          have e : wb.toNat = b.toNat := by
            rw [← hwb, BitVec.toNat_ofInt]; omega
          have e' : wb.toInt = b := by rw [BitVec.toInt_eq_toNat_cond]; split <;> omega
          have pos : (0 : Int) < 2 ^ b.toNat := Int.pow_pos (by omega)
          simp only [mulO]
          cases hsg : t.signed
          · have e1 := ua hsg
            refine ⟨_, rfl, ?_, ?_, rfl⟩
            · simp only [Val.word]
              rw [if_pos (by simp [shiftOk, e']; omega), e, ← e1, Nat.shiftRight_eq_div_pow]
              have : ((wa.toNat : Int) / 2 ^ b.toNat) = ((wa.toNat / 2 ^ b.toNat : Nat) : Int) := by
                simp
              rw [this, BitVec.ofInt_natCast]
            · show wrap t (a / 2 ^ b.toNat) = a / 2 ^ b.toNat
              have h0 : 0 ≤ a := by omega
              have h1 : a < 65536 := by have := wa.isLt; omega
              have l := Int.ediv_nonneg h0 (Int.le_of_lt pos)
              have u := Int.ediv_le_self (2 ^ b.toNat) h0
              rw [wrap_unsigned hsg]; omega
          · have e1 := sa hsg
            refine ⟨_, rfl, ?_, ?_, rfl⟩
            · simp only [Val.word]
              rw [if_pos (by simp [shiftOk, e']; omega), e, e1, Int.shiftRight_eq_div_pow]
              simp
            · show wrap t (a / 2 ^ b.toNat) = a / 2 ^ b.toNat
              have hr : -32768 ≤ a ∧ a < 32768 := by
                have := wa.toInt_lt; have := wa.le_toInt; omega
              have l : -32768 ≤ a / 2 ^ b.toNat := by
                rw [Int.le_ediv_iff_mul_le pos]
                have : (1 : Int) ≤ 2 ^ b.toNat := pos
                omega
              have u : a / 2 ^ b.toNat < 32768 := by
                apply Int.ediv_lt_of_lt_mul pos
                have : (1 : Int) ≤ 2 ^ b.toNat := pos
                omega
              rw [wrap_signed hsg]
              exact Int.bmod_eq_of_le (by omega) (by omega)
        · cases hv
    | _ => cases op <;> simp [mulVal] at hv

theorem add_value {op : AddOp} {a b v : Val} {ty : Ty} (ht : addType op a.ty b.ty = some ty)
    (hv : addVal op a b = some v) :
    ∃ f, binF (addO op) = some f ∧ f a.word b.word = .ok v.word ∧ v.Ranged ∧ v.ty = ty := by
  cases a with
  | char _ => cases op <;> simp [addVal] at hv
  | bool a =>
    cases b with
    | bool b =>
      cases op <;> simp [addVal] at hv <;> subst hv <;> simp [addType, Val.ty] at ht <;> subst ht <;>
        exact ⟨_, rfl, by cases a <;> cases b <;> rfl, trivial, rfl⟩
    | _ => cases op <;> simp [addVal] at hv
  | num t a =>
    cases b with
    | num t' b =>
      have hty : ty = .num t := by
        cases op <;> simp [addType, Val.ty] at ht <;> exact ht.symm
      subst hty
      cases op with
      | add =>
        cases hv
        refine ⟨_, rfl, ?_, wrap_wrap _ _, rfl⟩
        simp only [Val.word, ofInt_wrap, BitVec.ofInt_add, BitVec.ofInt_toInt]
      | sub =>
        cases hv
        refine ⟨_, rfl, ?_, wrap_wrap _ _, rfl⟩
        simp only [Val.word, ofInt_wrap, Int.sub_eq_add_neg, BitVec.ofInt_add, BitVec.ofInt_neg,
          BitVec.ofInt_toInt]
      | or =>
        cases hv
        exact ⟨_, rfl, by simp only [Val.word, ofInt_ofBits], wrap_ofBits _ _, rfl⟩
      | bar =>
        cases hv
        exact ⟨_, rfl, by simp only [Val.word, ofInt_ofBits], wrap_ofBits _ _, rfl⟩
      | xor =>
        cases hv
        exact ⟨_, rfl, by simp only [Val.word, ofInt_ofBits], wrap_ofBits _ _, rfl⟩
    | _ => cases op <;> simp [addVal] at hv

theorem rel_value {op : RelOp} {a b v : Val} {ty : Ty} (ht : relType op a.ty b.ty = some ty)
    (hv : relVal op a b = some v) :
    ∃ f, binF (relO op a.ty b.ty) = some f ∧ f a.word b.word = .ok v.word ∧ v.Ranged ∧ v.ty = ty := by
  cases a with
  | char a =>
    cases b with
    | char b =>
      cases op with
      | eq =>
        cases hv; cases ht
        refine ⟨_, rfl, ?_, trivial, rfl⟩
        rw [bool_word]
        congr 1
        apply pasBool_congr
        rw [toInt_eq_iff, char_inj]; exact eq_comm
      | ne =>
        cases hv; cases ht
        refine ⟨_, rfl, ?_, trivial, rfl⟩
        rw [bool_word]
        congr 1
        apply pasBool_congr
        rw [Ne, toInt_eq_iff, char_inj]; exact not_congr eq_comm
      | _ => cases hv
    | _ => cases op <;> simp [relVal] at hv
  | bool a =>
    cases b with
    | bool b =>
      cases op with
      | eq =>
        cases hv; cases ht
        exact ⟨_, rfl, by cases a <;> cases b <;> rfl, trivial, rfl⟩
      | ne =>
        cases hv; cases ht
        exact ⟨_, rfl, by cases a <;> cases b <;> rfl, trivial, rfl⟩
      | _ => cases hv
    | _ => cases op <;> simp [relVal] at hv
  | num t a =>
    cases b with
    | num t' b =>
      simp only [relVal, Option.map_eq_some_iff] at hv
      obtain ⟨u, hu, rfl⟩ := hv
      have hty : ty = .bool := by
        cases op <;> simp [relType, Val.ty, hu] at ht <;> exact ht.symm
      subst hty
      show ∃ f, binF (relO op (.num t) (.num t')) = some f ∧ _
      generalize hwa : (Val.num t a).word = wa
      generalize hwb : (Val.num t' b).word = wb
      have hwa : BitVec.ofInt 16 a = wa := hwa
      have hwb : BitVec.ofInt 16 b = wb := hwb
      have sa : u.signed = true → wa.toInt = wrap u a := fun h => by rw [← hwa, toInt_num h]
      have sb : u.signed = true → wb.toInt = wrap u b := fun h => by rw [← hwb, toInt_num h]
      have ua : u.signed = false → (wa.toNat : Int) = wrap u a := fun h => by
        rw [← hwa, toNat_num h]
      have ub : u.signed = false → (wb.toNat : Int) = wrap u b := fun h => by
        rw [← hwb, toNat_num h]
      simp only [relO, hu]
      have fin : ∀ (o : Op) (f : Word → Word → Res Word) (q : Prop) [Decidable q],
          binF o = some f → f wa wb = .ok (pasBool (decide q)) →
          (q ↔ op.holds (wrap u a) (wrap u b) = true) →
          ∃ f, binF o = some f ∧ f wa wb = .ok (Val.bool (op.holds (wrap u a) (wrap u b))).word ∧
            (Val.bool (op.holds (wrap u a) (wrap u b))).Ranged ∧
            (Val.bool (op.holds (wrap u a) (wrap u b))).ty = .bool := by
        intro o f q _ hf hr hq
        refine ⟨f, hf, ?_, trivial, rfl⟩
        rw [hr, bool_word]
        by_cases h : q
        · simp [h, hq.mp h]
        · have : op.holds (wrap u a) (wrap u b) = false := by
            rw [← Bool.not_eq_true]; exact fun h' => h (hq.mpr h')
          simp [h, this]
      cases op with
      | eq =>
        refine fin _ _ _ rfl rfl ?_
        rw [toInt_eq_iff, ← hwa, ← hwb, eq_comm, word_inj u a b]
        simp [RelOp.holds]
      | ne =>
        refine fin _ _ _ rfl rfl ?_
        rw [Ne, toInt_eq_iff, ← hwa, ← hwb, eq_comm, word_inj u a b]
        simp [RelOp.holds]
      | _ =>
        cases hs : u.signed
        · refine fin _ _ _ rfl rfl ?_
          have := ua hs
          have := ub hs
          simp only [RelOp.holds, decide_eq_true_eq]
          omega
        · refine fin _ _ _ rfl rfl ?_
          have := sa hs
          have := sb hs
          simp only [RelOp.holds, decide_eq_true_eq]
          omega
    | _ => cases op <;> simp [relVal] at hv

theorem not_value {v v' : Val} (hv : (match v with
      | .num t i => some (Val.num t (wrap t (-i - 1)))
      | .bool b => some (.bool !b)
      | _ => none) = some v') : ~~~v.word = v'.word ∧ v'.Ranged ∧ v'.ty = v.ty := by
  cases v with
  | num t i =>
    cases hv
    refine ⟨?_, wrap_wrap _ _, rfl⟩
    simp only [Val.word, ofInt_wrap]
    rw [Int.sub_eq_add_neg, BitVec.ofInt_add, BitVec.ofInt_neg, BitVec.neg_eq_not_add]
    bv_omega
  | bool b => cases hv; exact ⟨by cases b <;> rfl, trivial, rfl⟩
  | char c => cases hv

end Pas.Src
