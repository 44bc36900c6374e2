import Verif.Lemmas.CompSim
import Verif.Spec.Labels

/-! The labels of the code of statements: each is defined once, all that are used are defined. -/
namespace Pas.Src
open Pas.Spec Pas.Comp

/-- Operations without a label, other than END. -/
def calm (o : Op) : Bool := decide (o ≠ .label ∧ o ≠ .end_ ∧ operandKind o ≠ .program)

def Calm (i : OpType) : Prop := ∃ o a b, i = ins o a b ∧ calm o = true

theorem ref_calm {lev : Nat} {o : Op} {x : Variable} (h : calm o = true)
    (h' : calm ((level0 o).getD o) = true) : Calm (ref lev o x) := by
  unfold ref
  split
  · exact ⟨_, _, _, rfl, h'⟩
  · exact ⟨_, _, _, rfl, h⟩

theorem ld_calm (t : Ty) : calm (ldO t) = true ∧ calm ((level0 (ldO t)).getD (ldO t)) = true := by
  cases t with
  | num t => cases t <;> decide
  | _ => decide
theorem st_calm (t : Ty) : calm (stO t) = true ∧ calm ((level0 (stO t)).getD (stO t)) = true := by
  cases t with
  | num t => cases t <;> decide
  | _ => decide

theorem ldx_calm (t : Ty) : calm (ldxO t) = true ∧ calm ((level0 (ldxO t)).getD (ldxO t)) = true := by
  cases t with
  | num t => cases t <;> decide
  | _ => decide
theorem stx_calm (t : Ty) : calm (stxO t) = true ∧ calm ((level0 (stxO t)).getD (stxO t)) = true := by
  cases t with
  | num t => cases t <;> decide
  | _ => decide

theorem mulO_calm (op : MulOp) (t : Ty) : calm (mulO op t) = true := by
  cases t with
  | num t => cases op <;> cases t <;> decide
  | _ => cases op <;> decide
theorem addO_calm (op : AddOp) : calm (addO op) = true := by cases op <;> decide
theorem relO_calm (op : RelOp) (t u : Ty) : calm (relO op t u) = true := by
  cases t with
  | num t => cases u with
    | num u => cases op <;> cases t <;> cases u <;> decide
    | _ => cases op <;> cases t <;> decide
  | _ => cases u with
    | num u => cases op <;> cases u <;> decide
    | _ => cases op <;> decide

theorem callI_calm (f : Fn) (t : Ty) : ∀ i ∈ callI f t, Calm i := by
  cases f <;> simp only [callI, List.mem_cons, List.not_mem_nil, or_false, false_implies, implies_true]
  · intro i hi; exact ⟨_, _, _, hi, by decide⟩
  · rintro i (hi | hi)
    · exact ⟨_, _, _, hi, by decide⟩
    · exact ⟨_, _, _, hi, mulO_calm _ _⟩
  · intro i hi; exact ⟨_, _, _, hi, by decide⟩
  · intro i hi; exact ⟨_, _, _, hi, by decide⟩
  · rintro i (hi | hi | hi) <;> exact ⟨_, _, _, hi, by decide⟩

theorem idx_calm (a : Arr) : ∀ i ∈ idxI a, Calm i := by
  intro i hi
  simp only [idxI, List.mem_append] at hi
  rcases hi with hi | hi
  · split at hi
    · cases hi
    · simp only [List.mem_cons, List.not_mem_nil, or_false] at hi
      rcases hi with hi | hi <;> exact ⟨_, _, _, hi, by decide⟩
  · split at hi
    · cases hi
    · simp only [List.mem_cons, List.not_mem_nil, or_false] at hi
      rcases hi with hi | hi <;> exact ⟨_, _, _, hi, by decide⟩

theorem code_calm {lev : Nat} {l : Lvl} (e : E l) : ∀ x, ∀ i ∈ code lev x e, Calm i := by
  induction e with
  | int | bool | char =>
    intro x i hi
    simp only [code, List.mem_singleton] at hi
    exact ⟨_, _, _, hi, by decide⟩
  | var v =>
    intro x i hi
    simp only [code, List.mem_singleton] at hi
    subst hi
    exact ref_calm (ld_calm _).1 (ld_calm _).2
  | not b f ih =>
    intro x i hi
    simp only [code, List.mem_append, List.mem_singleton] at hi
    rcases hi with hi | hi
    · exact ih _ i hi
    · exact ⟨_, _, _, hi, by decide⟩
  | paren e ih => intro x i hi; exact ih _ i hi
  | call f e ih =>
    intro x i hi
    simp only [code, List.mem_append] at hi
    rcases hi with hi | hi
    · exact ih _ i hi
    · exact callI_calm _ _ i hi
  | index a e ih =>
    intro x i hi
    simp only [code, List.mem_append, List.mem_singleton] at hi
    rcases hi with (hi | hi) | hi
    · exact ih _ i hi
    · exact idx_calm _ i hi
    · subst hi
      exact ref_calm (ldx_calm _).1 (ldx_calm _).2
  | factor f ih => intro x i hi; exact ih _ i hi
  | mul t o f ih ih' =>
    intro x i hi
    simp only [code, List.mem_append, List.mem_singleton] at hi
    rcases hi with (hi | hi) | hi
    · exact ih _ i hi
    · exact ih' _ i hi
    · exact ⟨_, _, _, hi, mulO_calm _ _⟩
  | term s t ih =>
    intro x i hi
    rcases s with _ | s
    · exact ih _ i hi
    · cases s
      · exact ih _ i hi
      · simp only [code, List.mem_append, List.mem_singleton] at hi
        rcases hi with hi | hi
        · exact ih _ i hi
        · exact ⟨_, _, _, hi, by decide⟩
  | add t o f ih ih' =>
    intro x i hi
    simp only [code, List.mem_append, List.mem_singleton] at hi
    rcases hi with (hi | hi) | hi
    · exact ih _ i hi
    · exact ih' _ i hi
    · exact ⟨_, _, _, hi, addO_calm _⟩
  | simple f ih => intro x i hi; exact ih _ i hi
  | rel t o f ih ih' =>
    intro x i hi
    simp only [code, List.mem_append, List.mem_singleton] at hi
    rcases hi with (hi | hi) | hi
    · exact ih _ i hi
    · exact ih' _ i hi
    · exact ⟨_, _, _, hi, relO_calm _ _ _⟩

theorem codeI_calm {lev r : Nat} (j : Item) : ∀ i ∈ codeI lev r j, Calm i := by
  intro i hi
  cases j with
  | val e w =>
    simp only [codeI, List.mem_cons, List.mem_append, List.not_mem_nil, or_false] at hi
    rcases hi with hi | hi | hi | hi
    · exact ⟨_, _, _, hi, by decide⟩
    · exact code_calm e _ i hi
    · cases w with
      | none =>
        simp only [codeW, List.mem_singleton] at hi
        exact ⟨_, _, _, hi, by decide⟩
      | some w =>
        simp only [codeW, List.mem_cons, List.mem_append, List.not_mem_nil, or_false] at hi
        rcases hi with hi | hi | hi
        · exact code_calm w _ i hi
        · exact ⟨_, _, _, hi, by decide⟩
        · exact ⟨_, _, _, hi, by decide⟩
    · exact ⟨_, _, _, hi, by decide⟩
  | str t =>
    simp only [codeI, List.mem_cons, List.not_mem_nil, or_false] at hi
    rcases hi with hi | hi | hi | hi | hi | hi <;> exact ⟨_, _, _, hi, by decide⟩

theorem codeIs_calm {lev : Nat} {p : Byte} (is : List Item) : ∀ r, ∀ i ∈ codeIs lev p r is, Calm i := by
  induction is with
  | nil => intro r i hi; cases hi
  | cons j is ih =>
    intro r i hi
    simp only [codeIs, List.mem_append] at hi
    rcases hi with hi | hi
    · exact codeI_calm j i hi
    · exact ih _ i hi

theorem codeVs_calm {lev : Nat} (xs : List Variable) : ∀ i ∈ codeVs lev xs, Calm i := by
  induction xs with
  | nil => intro i hi; cases hi
  | cons x xs ih =>
    intro i hi
    simp only [codeVs, codeV, List.mem_append, List.mem_cons, List.not_mem_nil, or_false] at hi
    rcases hi with (hi | hi | hi) | hi
    · exact ⟨_, _, _, hi, by decide⟩
    · rw [hi]; exact ref_calm (by decide) (by decide)
    · exact ⟨_, _, _, hi, by decide⟩
    · exact ih i hi

/-! ### Each label is defined once -/

/-- The instruction defines the label. -/
def isLab (v : Nat) (i : OpType) : Bool := i.op == Op.label.toByte && i.arg2 == BitVec.ofNat 16 v

theorem isLab_ins {v : Nat} {o : Op} (h : o ≠ .label) (a b : Int) : isLab v (ins o a b) = false := by
  unfold isLab
  rw [show (ins o a b).op = o.toByte from rfl]
  rw [show (o.toByte == Op.label.toByte) = false from by
    rw [beq_eq_false_iff_ne]; exact fun e => h (Op.toByte_inj e)]
  rfl

theorem Calm.isLab {v : Nat} {i : OpType} (h : Calm i) : isLab v i = false := by
  obtain ⟨o, a, b, rfl, ho⟩ := h
  refine isLab_ins ?_ _ _
  intro e; subst e; revert ho; decide

theorem isLab_labI {u v : Nat} (hu : u ≤ 65535) (hv : v ≤ 65535) :
    isLab v (labI u) = decide (u = v) := by
  unfold isLab
  rw [labI_eq]
  show (true && (BitVec.ofNat 16 u == BitVec.ofNat 16 v)) = _
  rw [Bool.true_and]
  by_cases h : u = v
  · subst h; simp
  · rw [decide_eq_false h, beq_eq_false_iff_ne]
    intro e
    have := congrArg BitVec.toNat e
    simp at this
    omega

/-- How often the label is defined. -/
def cnt (v : Nat) (c : List OpType) : Nat := c.countP (isLab v)

theorem cnt_nil (v : Nat) : cnt v [] = 0 := rfl
theorem cnt_append (v : Nat) (c d : List OpType) : cnt v (c ++ d) = cnt v c + cnt v d :=
  List.countP_append
theorem cnt_ins {v : Nat} {o : Op} (h : o ≠ .label) (a b : Int) (c : List OpType) :
    cnt v (ins o a b :: c) = cnt v c := by
  unfold cnt; rw [List.countP_cons, isLab_ins h]; rfl
theorem cnt_calm {v : Nat} {i : OpType} (h : Calm i) (c : List OpType) :
    cnt v (i :: c) = cnt v c := by
  unfold cnt; rw [List.countP_cons, h.isLab]; rfl
theorem cnt_labI {u v : Nat} (hu : u ≤ 65535) (hv : v ≤ 65535) (c : List OpType) :
    cnt v (labI u :: c) = cnt v c + if u = v then 1 else 0 := by
  unfold cnt; rw [List.countP_cons, isLab_labI hu hv]; simp
theorem cnt_calms {v : Nat} {c : List OpType} (h : ∀ i ∈ c, Calm i) : cnt v c = 0 := by
  unfold cnt
  rw [List.countP_eq_zero]
  intro i hi
  rw [(h i hi).isLab]; decide
theorem cnt_code (v lev : Nat) (x : Expect) {l : Lvl} (e : E l) : cnt v (code lev x e) = 0 :=
  cnt_calms (code_calm e x)
theorem cnt_line (v : Nat) (g : Cfg) (m : Nat) (c : List OpType) : cnt v (lineI g m :: c) = cnt v c :=
  cnt_ins (by decide) _ _ _
theorem cnt_lds (v lev : Nat) (x : Variable) (c : List OpType) :
    cnt v (ref lev .lds x :: c) = cnt v c := cnt_calm (ref_calm (by decide) (by decide)) _
theorem cnt_sts (v lev : Nat) (x : Variable) (c : List OpType) :
    cnt v (ref lev .sts x :: c) = cnt v c := cnt_calm (ref_calm (by decide) (by decide)) _
theorem cnt_st (v lev : Nat) (x : Variable) (c : List OpType) :
    cnt v (ref lev (stO x.ty) x :: c) = cnt v c := cnt_calm (ref_calm (st_calm _).1 (st_calm _).2) _

theorem cnt_stx (v lev : Nat) (a : Arr) (c : List OpType) :
    cnt v (ref lev (stxO a.ty) a.base :: c) = cnt v c :=
  cnt_calm (ref_calm (stx_calm _).1 (stx_calm _).2) _

theorem cnt_codeK (v st nx : Nat) (ks : List Const) : ∀ k, cnt v (codeK st nx k ks) = 0 := by
  induction ks with
  | nil => intro k; simp only [codeK]; rw [cnt_ins, cnt_ins, cnt_ins] <;> first | rfl | decide
  | cons k' ks ih =>
    intro k; simp only [codeK]; rw [cnt_ins, cnt_ins, cnt_ins, ih] <;> decide

theorem cnt_codeA (v lev : Nat) (ts : List Ty) : ∀ es, cnt v (codeA lev ts es) = 0 := by
  induction ts with
  | nil => intro es; cases es <;> rfl
  | cons t ts ih =>
    intro es
    cases es with
    | nil => rfl
    | cons e es => simp only [codeA]; rw [cnt_append, cnt_code, ih]

theorem cnt_leave (v : Nat) (a : Int) (l : Nat) : cnt v (leave a l) = 0 := by
  unfold leave
  split
  · rw [cnt_ins] <;> first | rfl | decide
  · rw [cnt_ins, cnt_ins] <;> first | rfl | decide

/-- The label defined in front of the cases. -/
def extra : SK → Ctx → Nat → Nat
  | .cases, x, v => if x.this = v then 1 else 0
  | _, _, _ => 0

/-- One if the number is in the range. -/
def within (l n v : Nat) : Nat := if l < v ∧ v ≤ l + n then 1 else 0

theorem cnt_codeS {k : SK} (g : Cfg) (st : S k) : ∀ (m l : Nat) (x : Ctx) (v : Nat), v ≤ 65535 →
    l + st.nlab ≤ 65535 → x.this ≤ 65535 →
    cnt v (codeS g st m l x) ≤ extra k x v + within l st.nlab v := by
  have z : ∀ l v, within l 0 v = 0 := fun l v => by unfold within; rw [if_neg (by omega)]
  have jf : ∀ (d : Bool), (if d then Op.jgt else Op.jlt) ≠ .label := by decide
  have df : ∀ (d : Bool), (if d then Op.dec else Op.inc) ≠ .label := by decide
  induction st with
  | empty => intro m l x v hv hl hx; simp only [codeS, S.nlab, extra, z]; rw [cnt_line]; exact Nat.le_refl _
  | assign y e =>
    intro m l x v hv hl hx
    simp only [codeS, S.nlab, extra, z]; rw [cnt_line, cnt_append, cnt_code, cnt_st]; exact Nat.le_refl _
  | assignAt a i e =>
    intro m l x v hv hl hx
    simp only [codeS, S.nlab, extra, z]
    rw [cnt_line, cnt_append, cnt_append, cnt_append, cnt_code, cnt_calms (idx_calm a), cnt_code, cnt_stx]; exact Nat.le_refl _
  | ifThen e s ih =>
    intro m l x v hv hl hx
    simp only [codeS, S.nlab, extra] at hl ⊢
    have h1 := ih (m - (e.toks.length + 2)) (l + 1) x v hv (by omega) hx
    rw [cnt_line, cnt_append, cnt_code, cnt_ins (by decide), cnt_append, cnt_labI (by omega) hv, cnt_nil]
    simp only [extra, within] at *; revert h1; (repeat' split) <;> (intros; omega)
  | ifElse e s t ih ih' =>
    intro m l x v hv hl hx
    simp only [codeS, S.nlab, extra] at hl ⊢
    have h1 := ih (m - (e.toks.length + 2)) (l + 1) x v hv (by omega) hx
    have h2 := ih' (m - (e.toks.length + s.toks.length + 3)) (l + 2 + s.nlab) { x with ro := x.ro ++ s.ro g.pad } v hv (by omega) hx
    rw [cnt_line, cnt_append, cnt_code, cnt_ins (by decide), cnt_append, cnt_ins (by decide), cnt_labI (by omega) hv, cnt_append, cnt_labI (by omega) hv, cnt_nil]
    simp only [extra, within] at *; revert h1 h2; (repeat' split) <;> (intros; omega)
  | while_ e s ih =>
    intro m l x v hv hl hx
    simp only [codeS, S.nlab, extra] at hl ⊢
    have h1 := ih (m - (e.toks.length + 2)) (l + 2) ⟨l + 1, l + 2, 0, 0, 0, x.ro⟩ v hv (by omega) (by simp)
    rw [cnt_line, cnt_labI (by omega) hv, cnt_append, cnt_code, cnt_ins (by decide), cnt_append, cnt_ins (by decide), cnt_labI (by omega) hv, cnt_nil]
    simp only [extra, within] at *; revert h1; (repeat' split) <;> (intros; omega)
  | repeat_ ls e ih =>
    intro m l x v hv hl hx
    simp only [codeS, S.nlab, extra] at hl ⊢
    have h1 := ih (m - 1) (l + 2) ⟨l + 1, l + 2, 0, 0, 0, x.ro⟩ v hv (by omega) (by simp)
    rw [cnt_line, cnt_labI (by omega) hv, cnt_append, cnt_append, cnt_code, cnt_ins (by decide), cnt_labI (by omega) hv, cnt_nil]
    simp only [extra, within] at *; revert h1; (repeat' split) <;> (intros; omega)
  | for_ y d a c s ih =>
    intro m l x v hv hl hx
    simp only [codeS, S.nlab, extra] at hl ⊢
    have h1 := ih (m - (a.toks.length + c.toks.length + 5)) (l + 3) ⟨l + 3, l + 2, 0, 0, 0, x.ro⟩ v hv (by omega) (by simp)
    rw [cnt_line, cnt_append, cnt_code, cnt_sts, cnt_append, cnt_code, cnt_labI (by omega) hv,
      cnt_ins (by decide), cnt_lds, cnt_ins (jf d), cnt_append, cnt_labI (by omega) hv, cnt_lds, cnt_ins (df d), cnt_sts,
      cnt_ins (by decide), cnt_labI (by omega) hv, cnt_ins (by decide), cnt_nil]
    simp only [extra, within] at *; revert h1; (repeat' split) <;> (intros; omega)
  | case_ e cs ih =>
    intro m l x v hv hl hx
    simp only [codeS, S.nlab, extra] at hl ⊢
    have h1 := ih (m - (e.toks.length + 2)) (l + 2) ⟨x.cont, x.brk, x.adj - 2, l + 1, l + 2, x.ro⟩ v hv (by omega) (by simp; omega)
    rw [cnt_line, cnt_append, cnt_code, cnt_append,
      cnt_labI (by omega) hv, cnt_ins (by decide), cnt_nil]
    simp only [extra, within] at *; revert h1; (repeat' split) <;> (intros; omega)
  | block ls ih =>
    intro m l x v hv hl hx
    simp only [codeS, S.nlab] at hl ⊢
    rw [cnt_line]; exact ih _ _ _ _ hv hl hx
  | write ln file i is =>
    intro m l x v hv hl hx; simp only [codeS, S.nlab, extra, z]
    rw [cnt_line, cnt_ins (by decide), cnt_append, cnt_calms (codeIs_calm _ _)]
    cases ln
    · exact Nat.le_of_eq (congrArg (0 + ·) (cnt_ins (o := .inds) (by decide) _ _ _))
    · exact Nat.le_of_eq (congrArg (0 + ·) (cnt_ins (o := .sysio) (by decide) _ _ _))
  | call q args =>
    intro m l x v hv hl hx; simp only [codeS, S.nlab, extra, z]
    rw [cnt_line, cnt_append, cnt_codeA, callCode, cnt_ins (by decide)]
    split
    · exact Nat.le_refl _
    · rw [cnt_ins (by decide)]; exact Nat.le_refl _
  | newline p =>
    intro m l x v hv hl hx; simp only [codeS, S.nlab, extra, z]
    rw [cnt_line, cnt_ins (by decide), cnt_ins (by decide)]; exact Nat.le_refl _
  | read ln file y ys =>
    intro m l x v hv hl hx; simp only [codeS, S.nlab, extra, z]
    rw [cnt_line, cnt_ins (by decide), cnt_append, cnt_calms (codeVs_calm _)]
    cases ln
    · exact Nat.le_of_eq (congrArg (0 + ·) (cnt_ins (o := .inds) (by decide) _ _ _))
    · exact Nat.le_of_eq (congrArg (0 + ·) (cnt_ins (o := .sysio) (by decide) _ _ _))
  | skipLine p =>
    intro m l x v hv hl hx; simp only [codeS, S.nlab, extra, z]
    rw [cnt_line, cnt_ins (by decide), cnt_ins (by decide)]; exact Nat.le_refl _
  | break_ => intro m l x v hv hl hx; simp only [codeS, S.nlab, extra, z]; rw [cnt_line, cnt_leave]; exact Nat.le_refl _
  | continue_ => intro m l x v hv hl hx; simp only [codeS, S.nlab, extra, z]; rw [cnt_line, cnt_leave]; exact Nat.le_refl _
  | one s ih => intro m l x v hv hl hx; exact ih _ _ _ _ hv hl hx
  | cons s ls ih ih' =>
    intro m l x v hv hl hx
    simp only [codeS, S.nlab, extra] at hl ⊢
    have h1 := ih m l x v hv (by omega) hx
    have h2 := ih' (m - (s.toks.length + 1)) (l + s.nlab) { x with ro := x.ro ++ s.ro g.pad } v hv (by omega) hx
    rw [cnt_append]
    simp only [extra, within] at *; revert h1 h2; (repeat' split) <;> (intros; omega)
  | last q qs s semi ih =>
    intro m l x v hv hl hx
    simp only [codeS, S.nlab, extra] at hl ⊢
    have h1 := ih (m - ((constToks q qs).length + 1)) (l + 2) x v hv (by omega) hx
    rw [cnt_labI hx hv, cnt_append, cnt_codeK, cnt_labI (by omega) hv, cnt_append, cnt_ins (by decide), cnt_labI (by omega) hv, cnt_nil]
    simp only [extra, within] at *; revert h1; (repeat' split) <;> (intros; omega)
  | more q qs s cs ih ih' =>
    intro m l x v hv hl hx
    simp only [codeS, S.nlab, extra] at hl ⊢
    have h1 := ih (m - ((constToks q qs).length + 1)) (l + 2) x v hv (by omega) hx
    have h2 := ih' (m - ((constToks q qs).length + s.toks.length + 2)) (l + 2 + s.nlab) { x with this := l + 1, ro := x.ro ++ s.ro g.pad } v hv (by omega) (by simp; omega)
    rw [cnt_labI hx hv, cnt_append, cnt_codeK, cnt_labI (by omega) hv, cnt_append, cnt_ins (by decide)]
    simp only [extra, within] at *; revert h1 h2; (repeat' split) <;> (intros; omega)
  | otherwise s semi ih =>
    intro m l x v hv hl hx
    simp only [codeS, S.nlab, extra] at hl ⊢
    have h1 := ih (m - 1) (l + 1) x v hv (by omega) hx
    rw [cnt_labI hx hv]
    simp only [extra, within] at *; revert h1; (repeat' split) <;> (intros; omega)

theorem isLab_mark (L : Word) : isLab L.toNat (labelMark L) = true := by
  unfold isLab labelMark; simp

/-- No label is defined twice. -/
theorem uniq_of_cnt {p : List OpType} (h : ∀ v, v ≤ 65535 → cnt v p ≤ 1) : Uniq p := by
  have key : ∀ (L : Word) (k k' : Nat), p[k]? = some (labelMark L) → p[k']? = some (labelMark L) →
      ¬ k < k' := by
    intro L k k' h1 h2 hlt
    have hl := L.isLt
    have h0 := h L.toNat (by omega)
    have e : cnt L.toNat p = cnt L.toNat (p.take k') + cnt L.toNat (p.drop k') := by
      rw [← cnt_append, List.take_append_drop]
    have a1 : 0 < cnt L.toNat (p.take k') := by
      refine List.countP_pos_iff.2 ⟨labelMark L, ?_, isLab_mark L⟩
      refine List.mem_of_getElem? (i := k) ?_
      rw [List.getElem?_take_of_lt hlt, h1]
    have a2 : 0 < cnt L.toNat (p.drop k') := by
      refine List.countP_pos_iff.2 ⟨labelMark L, ?_, isLab_mark L⟩
      refine List.mem_of_getElem? (i := 0) ?_
      rw [List.getElem?_drop, Nat.add_zero, h2]
    omega
  intro k k' L h1 h2
  have := key L k k' h1 h2
  have := key L k' k h2 h1
  omega

/-! ### All labels that are used are defined -/

/-- The code consists of operations without labels, definitions of labels and jumps to labels of
`D`. -/
def JOk (D : Nat → Prop) (c : List OpType) : Prop :=
  ∀ i ∈ c, Calm i ∨ (∃ v, i = labI v) ∨
    ∃ o a v, i = ins o a ((v : Nat) : Int) ∧
      (o = .jmp ∨ o = .jequz ∨ o = .jequ ∨ o = .jneq ∨ o = .jlt ∨ o = .jgt ∨ o = .pcal) ∧ D v

theorem JOk.mono {D D' : Nat → Prop} {c : List OpType} (h : JOk D c) (hd : ∀ v, D v → D' v) :
    JOk D' c := by
  intro i hi
  rcases h i hi with h | h | ⟨o, a, v, h1, h2, h3⟩
  · exact .inl h
  · exact .inr (.inl h)
  · exact .inr (.inr ⟨o, a, v, h1, h2, hd v h3⟩)

theorem JOk.append {D : Nat → Prop} {c d : List OpType} (h : JOk D c) (h' : JOk D d) :
    JOk D (c ++ d) := by
  intro i hi
  rcases List.mem_append.1 hi with hi | hi
  · exact h i hi
  · exact h' i hi

theorem JOk.nil {D : Nat → Prop} : JOk D [] := fun i hi => by cases hi

theorem JOk.calm {D : Nat → Prop} {i : OpType} {c : List OpType} (h : Calm i) (h' : JOk D c) :
    JOk D (i :: c) := by
  intro j hj
  rcases List.mem_cons.1 hj with rfl | hj
  · exact .inl h
  · exact h' j hj

theorem JOk.ins {D : Nat → Prop} {o : Op} {a b : Int} {c : List OpType} (h : Src.calm o = true)
    (h' : JOk D c) : JOk D (Src.ins o a b :: c) := JOk.calm ⟨_, _, _, rfl, h⟩ h'

theorem JOk.lab {D : Nat → Prop} {v : Nat} {c : List OpType} (h' : JOk D c) : JOk D (labI v :: c) := by
  intro j hj
  rcases List.mem_cons.1 hj with rfl | hj
  · exact .inr (.inl ⟨_, rfl⟩)
  · exact h' j hj

theorem JOk.jump {D : Nat → Prop} {o : Op} {a : Int} {v : Nat} {c : List OpType}
    (h : o = .jmp ∨ o = .jequz ∨ o = .jequ ∨ o = .jneq ∨ o = .jlt ∨ o = .jgt ∨ o = .pcal) (hd : D v)
    (h' : JOk D c) : JOk D (Src.ins o a ((v : Nat) : Int) :: c) := by
  intro j hj
  rcases List.mem_cons.1 hj with rfl | hj
  · exact .inr (.inr ⟨_, _, _, rfl, h, hd⟩)
  · exact h' j hj

theorem JOk.code {D : Nat → Prop} {lev : Nat} {x : Expect} {l : Lvl} (e : E l) : JOk D (code lev x e) :=
  fun i hi => .inl (code_calm e x i hi)

theorem JOk.codeK {D : Nat → Prop} {st nx : Nat} (h1 : D st) (h2 : D nx) (ks : List Const) :
    ∀ k, JOk D (codeK st nx k ks) := by
  induction ks with
  | nil => exact fun k => .ins (by decide) (.ins (by decide) (.jump (by decide) h2 .nil))
  | cons k' ks ih => exact fun k => .ins (by decide) (.ins (by decide) (.jump (by decide) h1 (ih k')))

theorem JOk.codeA {D : Nat → Prop} {lev : Nat} (ts : List Ty) : ∀ es, JOk D (codeA lev ts es) := by
  induction ts with
  | nil => intro es; cases es <;> exact .nil
  | cons t ts ih =>
    intro es
    cases es with
    | nil => exact .nil
    | cons e es => exact .append (.code e) (ih es)

theorem JOk.leave {D : Nat → Prop} {a : Int} {l : Nat} (h : D l) : JOk D (leave a l) := by
  unfold Src.leave
  split
  · exact .jump (by decide) h .nil
  · exact .ins (by decide) (.jump (by decide) h .nil)

/-- The labels a statement may jump to: its own and those given. -/
def Dest (procs : Proc → Prop) (bb cc : Bool) (k : SK) (x : Ctx) (c : List OpType) (v : Nat) : Prop :=
  labI v ∈ c ∨ (bb = true ∧ v = x.brk) ∨ (cc = true ∧ v = x.cont) ∨ (k = .cases ∧ v = x.fin) ∨
    ∃ q, procs q ∧ v = q.label

theorem jumps_codeS {k : SK} {vars : Variable → Prop} {procs : Proc → Prop} (g : Cfg) (st : S k) :
    ∀ (m l : Nat) (x : Ctx) (bb cc : Bool), st.Ok vars procs bb cc →
    JOk (Dest procs bb cc k x (codeS g st m l x)) (codeS g st m l x) := by
  have jf : ∀ (d : Bool), (if d then Op.jgt else Op.jlt) = .jmp ∨ (if d then Op.jgt else Op.jlt) = .jequz ∨
      (if d then Op.jgt else Op.jlt) = .jequ ∨ (if d then Op.jgt else Op.jlt) = .jneq ∨
      (if d then Op.jgt else Op.jlt) = .jlt ∨ (if d then Op.jgt else Op.jlt) = .jgt ∨
      (if d then Op.jgt else Op.jlt) = .pcal := by decide
  have df : ∀ (d : Bool), calm (if d then Op.dec else Op.inc) = true := by decide
  induction st with
  | empty => intro m l x bb cc hok; exact .ins (by decide) .nil
  | assign y e =>
    intro m l x bb cc hok
    exact .ins (by decide) (.append (.code e) (.calm (ref_calm (st_calm _).1 (st_calm _).2) .nil))
  | assignAt a i e =>
    intro m l x bb cc hok
    exact .ins (by decide) (.append (.append (.append (.code i) (fun j hj => .inl (idx_calm a j hj))) (.code e))
      (.calm (ref_calm (stx_calm _).1 (stx_calm _).2) .nil))
  | ifThen e s ih =>
    intro m l x bb cc hok
    refine .ins (by decide) (.append (.code e) (.jump (by decide) (.inl (by simp [codeS]))
      (.append ((ih _ _ _ _ _ hok.2).mono ?_) (.lab .nil))))
    rintro v (h | h | h | h | h)
    · exact .inl (by simp [codeS, h])
    · exact .inr (.inl h)
    · exact .inr (.inr (.inl h))
    · cases h.1
    · exact .inr (.inr (.inr (.inr h)))
  | ifElse e s t ih ih' =>
    intro m l x bb cc hok
    refine .ins (by decide) (.append (.code e) (.jump (by decide) (.inl (by simp [codeS]))
      (.append ((ih _ _ _ _ _ hok.2.1).mono ?_) (.jump (by decide) (.inl (by simp [codeS]))
        (.lab (.append ((ih' _ _ _ _ _ hok.2.2.1).mono ?_) (.lab .nil)))))))
    · rintro v (h | h | h | h | h)
      · exact .inl (by simp [codeS, h])
      · exact .inr (.inl h)
      · exact .inr (.inr (.inl h))
      · cases h.1
      · exact .inr (.inr (.inr (.inr h)))
    · rintro v (h | h | h | h | h)
      · exact .inl (by simp [codeS, h])
      · exact .inr (.inl h)
      · exact .inr (.inr (.inl h))
      · cases h.1
      · exact .inr (.inr (.inr (.inr h)))
  | while_ e s ih =>
    intro m l x bb cc hok
    refine .ins (by decide) (.lab (.append (.code e) (.jump (by decide) (.inl (by simp [codeS]))
      (.append ((ih _ _ _ _ _ hok.2).mono ?_) (.jump (by decide) (.inl (by simp [codeS]))
      (.lab .nil))))))
    rintro v (h | h | h | h | h)
    · exact .inl (by simp [codeS, h])
    · exact .inl (by rw [h.2]; simp [codeS])
    · exact .inl (by rw [h.2]; simp [codeS])
    · cases h.1
    · exact .inr (.inr (.inr (.inr h)))
  | repeat_ ls e ih =>
    intro m l x bb cc hok
    refine .ins (by decide) (.lab (.append ((ih _ _ _ _ _ hok.1).mono ?_) (.append (.code e)
      (.jump (by decide) (.inl (by simp [codeS])) (.lab .nil)))))
    rintro v (h | h | h | h | h)
    · exact .inl (by simp [codeS, h])
    · exact .inl (by rw [h.2]; simp [codeS])
    · exact .inl (by rw [h.2]; simp [codeS])
    · cases h.1
    · exact .inr (.inr (.inr (.inr h)))
  | for_ y d a c s ih =>
    intro m l x bb cc hok
    refine .ins (by decide) (.append (.code a) (.calm (ref_calm (by decide) (by decide))
      (.append (.code c) (.lab (.ins (by decide) (.calm (ref_calm (by decide) (by decide))
      (.jump (jf d) (.inl (by simp [codeS])) (.append ((ih _ _ _ _ _ hok.2.2.2.2.2).mono ?_)
      (.lab (.calm (ref_calm (by decide) (by decide)) (.ins (df d)
      (.calm (ref_calm (by decide) (by decide)) (.jump (by decide) (.inl (by simp [codeS]))
      (.lab (.ins (by decide) .nil)))))))))))))))
    rintro v (h | h | h | h | h)
    · exact .inl (by simp [codeS, h])
    · exact .inl (by rw [h.2]; simp [codeS])
    · exact .inl (by rw [h.2]; simp [codeS])
    · cases h.1
    · exact .inr (.inr (.inr (.inr h)))
  | case_ e cs ih =>
    intro m l x bb cc hok
    obtain ⟨ty, _, _, hok⟩ := hok
    refine .ins (by decide) (.append (.code e) (.append ((ih _ _ _ _ _ hok).mono ?_)
      (.lab (.ins (by decide) .nil))))
    rintro v (h | h | h | h | h)
    · exact .inl (by simp [codeS, h])
    · exact .inr (.inl h)
    · exact .inr (.inr (.inl h))
    · exact .inl (by rw [h.2]; simp [codeS])
    · exact .inr (.inr (.inr (.inr h)))
  | block ls ih =>
    intro m l x bb cc hok
    refine .ins (by decide) ((ih _ _ _ _ _ hok).mono ?_)
    rintro v (h | h | h | h | h)
    · exact .inl (by simp [codeS, h])
    · exact .inr (.inl h)
    · exact .inr (.inr (.inl h))
    · cases h.1
    · exact .inr (.inr (.inr (.inr h)))
  | write ln file i is =>
    intro m l x bb cc hok
    refine .ins (by decide) (.ins (by decide) (.append (fun i hi => .inl (codeIs_calm _ _ i hi)) ?_))
    cases ln
    · exact .ins (by decide) .nil
    · exact .ins (by decide) .nil
  | call q args =>
    intro m l x bb cc hok
    refine .ins (by decide) (.append (.codeA _ _) (.jump (by decide)
      (.inr (.inr (.inr (.inr ⟨q, hok.1, rfl⟩)))) ?_))
    split
    · exact .nil
    · exact .ins (by decide) .nil
  | newline p => intro m l x bb cc hok; exact .ins (by decide) (.ins (by decide) (.ins (by decide) .nil))
  | read ln file y ys =>
    intro m l x bb cc hok
    refine .ins (by decide) (.ins (by decide) (.append (fun i hi => .inl (codeVs_calm _ i hi)) ?_))
    cases ln
    · exact .ins (by decide) .nil
    · exact .ins (by decide) .nil
  | skipLine p => intro m l x bb cc hok; exact .ins (by decide) (.ins (by decide) (.ins (by decide) .nil))
  | break_ => intro m l x bb cc hok; exact .ins (by decide) (.leave (.inr (.inl ⟨hok, rfl⟩)))
  | continue_ => intro m l x bb cc hok; exact .ins (by decide) (.leave (.inr (.inr (.inl ⟨hok, rfl⟩))))
  | one s ih =>
    intro m l x bb cc hok
    refine (ih m l _ _ _ hok).mono ?_
    rintro v (h | h | h | h | h)
    · exact .inl h
    · exact .inr (.inl h)
    · exact .inr (.inr (.inl h))
    · cases h.1
    · exact .inr (.inr (.inr (.inr h)))
  | cons s ls ih ih' =>
    intro m l x bb cc hok
    refine .append ((ih _ _ _ _ _ hok.1).mono ?_) ((ih' _ _ _ _ _ hok.2).mono ?_)
    · rintro v (h | h | h | h | h)
      · exact .inl (by simp [codeS, h])
      · exact .inr (.inl h)
      · exact .inr (.inr (.inl h))
      · cases h.1
      · exact .inr (.inr (.inr (.inr h)))
    · rintro v (h | h | h | h | h)
      · exact .inl (by simp [codeS, h])
      · exact .inr (.inl h)
      · exact .inr (.inr (.inl h))
      · cases h.1
      · exact .inr (.inr (.inr (.inr h)))
  | last q qs s semi ih =>
    intro m l x bb cc hok
    refine .lab (.append (.codeK (.inl (by simp [codeS])) (.inl (by simp [codeS])) _ _) (.lab
      (.append ((ih _ _ _ _ _ hok).mono ?_) (.jump (by decide) (.inr (.inr (.inr (.inl ⟨rfl, rfl⟩))))
      (.lab .nil)))))
    rintro v (h | h | h | h | h)
    · exact .inl (by simp [codeS, h])
    · exact .inr (.inl h)
    · exact .inr (.inr (.inl h))
    · cases h.1
    · exact .inr (.inr (.inr (.inr h)))
  | more q qs s cs ih ih' =>
    intro m l x bb cc hok
    obtain ⟨r, hr⟩ := codeS_this g cs (m - ((constToks q qs).length + s.toks.length + 2))
      (l + 2 + s.nlab) { x with this := l + 1, ro := x.ro ++ s.ro g.pad }
    refine .lab (.append (.codeK (.inl (by simp [codeS])) (.inl (by simp [codeS, hr])) _ _) (.lab
      (.append ((ih _ _ _ _ _ hok.1).mono ?_) (.jump (by decide) (.inr (.inr (.inr (.inl ⟨rfl, rfl⟩))))
      ((ih' _ _ _ _ _ hok.2).mono ?_)))))
    · rintro v (h | h | h | h | h)
      · exact .inl (by simp [codeS, h])
      · exact .inr (.inl h)
      · exact .inr (.inr (.inl h))
      · cases h.1
      · exact .inr (.inr (.inr (.inr h)))
    · rintro v (h | h | h | h | h)
      · exact .inl (by simp [codeS, h])
      · exact .inr (.inl h)
      · exact .inr (.inr (.inl h))
      · exact .inr (.inr (.inr (.inl h)))
      · exact .inr (.inr (.inr (.inr h)))
  | otherwise s semi ih =>
    intro m l x bb cc hok
    refine .lab ((ih _ _ _ _ _ hok).mono ?_)
    rintro v (h | h | h | h | h)
    · exact .inl (by simp [codeS, h])
    · exact .inr (.inl h)
    · exact .inr (.inr (.inl h))
    · cases h.1
    · exact .inr (.inr (.inr (.inr h)))

end Pas.Src
