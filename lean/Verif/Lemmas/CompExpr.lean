import Verif.Lemmas.Source

/-! The code generated for expressions. -/
namespace Pas.Src
open Pas.Spec Pas.Comp

/-- An instruction with its operands. -/
def ins (o : Op) (a b : Int) : OpType :=
  ⟨o.toByte, if hasArg8 o.toByte then BitVec.ofInt 8 a else 0,
    if hasArg16 o.toByte then BitVec.ofInt 16 b else 0⟩

/-- The operands are in range. -/
def ArgsOk (o : Op) (a b : Int) : Prop :=
  ¬ (hasArg8 o.toByte = true ∧ 255 < a) ∧
  ¬ (hasArg16 o.toByte = true ∧ (b < -32768 ∨ 65535 < b))

/-- The compiler has read up to `rest` and generated the code `c`. -/
def after (s : CS) (rest : List Tk) (c : List OpType) : CS :=
  { s with
    toks := rest
    out := s.out ++ c }

theorem gen_after {o : Op} {a b : Int} (h : ArgsOk o a b) (s : CS) (rest : List Tk)
    (c : List OpType) : gen o a b (after s rest c) = after s rest (c ++ [ins o a b]) := by
  unfold gen after ins
  rw [if_neg h.1, if_neg h.2]
  simp

theorem genSimple_after (o : Op) (s : CS) (rest : List Tk) (c : List OpType) :
    genSimple o (after s rest c) = after s rest (c ++ [ins o 0 0]) :=
  gen_after ⟨by omega, by omega⟩ _ _ _

theorem genData_after {o : Op} {b : Int} (h : -32768 ≤ b ∧ b ≤ 65535) (s : CS) (rest : List Tk)
    (c : List OpType) : genData o b (after s rest c) = after s rest (c ++ [ins o 0 b]) :=
  gen_after ⟨by omega, by omega⟩ _ _ _

theorem after_self {s : CS} {ts : List Tk} (h : s.toks = ts) : s = after s ts [] := by
  cases s; cases h; simp [after]

theorem after_after (s : CS) (r r' : List Tk) (c c' : List OpType) :
    after (after s r c) r' c' = after s r' (c ++ c') := by
  simp [after]

@[simp] theorem after_toks (s : CS) (r : List Tk) (c : List OpType) : (after s r c).toks = r := rfl
@[simp] theorem after_next (s : CS) (t : Tk) (r : List Tk) (c : List OpType) :
    (after s (t :: r) c).next = after s r c := rfl
@[simp] theorem after_tok (s : CS) (t : Tk) (r : List Tk) (c : List OpType) :
    (after s (t :: r) c).tok = t := rfl
theorem after_tok' (s : CS) (r : List Tk) (c : List OpType) :
    (after s r c).tok = r.headD .period := rfl
theorem expect_after (s : CS) (t : Tk) (r : List Tk) (c : List OpType) :
    (after s (t :: r) c).expect t = after s r c := by
  simp [CS.expect]

/-- What the compiler needs to know about a variable used at level `lev`. -/
structure Usable (lev : Nat) (x : Variable) : Prop where
  level : lev ≤ 255
  outer : x.level ≤ lev
  offset0 : x.level = 0 → 0 ≤ x.off ∧ x.off ≤ 65535
  offset : x.level ≠ 0 → -32768 ≤ x.off ∧ x.off ≤ 32767

/-- The load or store of a variable. -/
def ref (lev : Nat) (o : Op) (x : Variable) : OpType :=
  if x.level = 0 then ins ((level0 o).getD o) 0 x.off
  else ins o ((lev : Int) - x.level) x.off

theorem ref_after {g : Cfg} {o : Op} {x : Variable} (h : Usable g.level x) (ho : (level0 o).isSome)
    (k : Kind) (s : CS) (rest : List Tk) (c : List OpType) :
    stackRef g o ⟨k, x.level, x.off⟩ (after s rest c) =
      after s rest (c ++ [ref g.level o x]) := by
  unfold stackRef ref
  by_cases h0 : x.level = 0
  · rw [if_pos (by exact h0), if_pos h0]
    have := h.offset0 h0
    cases ho' : level0 o with
    | none => rw [ho'] at ho; cases ho
    | some o' =>
      simp only [Option.getD]
      rw [if_neg (by omega)]
      exact genData_after (by omega) _ _ _
  · rw [if_neg (by exact h0), if_neg h0]
    have := h.offset h0
    have := h.level
    have := h.outer
    have e : ((g.level : Int) - x.level) % 65536 = (g.level : Int) - x.level := by omega
    simp only [e]
    exact gen_after ⟨by omega, by omega⟩ _ _ _

/-- The load of a variable of the type. -/
def ldO : Ty → Op
  | .num .shortInteger => .ldsb
  | .num .shortWord | .char => .uldsb
  | _ => .lds

/-- The store. -/
def stO : Ty → Op
  | .num .shortInteger | .num .shortWord | .char => .stsb
  | _ => .sts

/-- The code of a standard function of an argument of the type. -/
def callI : Fn → Ty → List OpType
  | .abs, _ => [ins .abs_ 0 0]
  | .sqr, t => [ins .dup 0 0, ins (mulO .mul t) 0 0]
  | .pred, _ => [ins .dec 0 0]
  | .succ, _ => [ins .inc 0 0]
  | .odd, _ => [ins .push 0 1, ins .and_ 0 0, ins .neqz 0 0]
  | _, _ => []

/-- The first element of an array. -/
def Arr.base (a : Arr) : Variable := ⟨a.ty, a.level, a.off⟩

theorem Arr.elem_lo (a : Arr) : a.elem a.lo = a.base := by
  simp [Arr.elem, Arr.base]

theorem Arr.elem_mem {a : Arr} {i : Nat} (h1 : a.lo ≤ i) (h2 : i ≤ a.hi) : a.elem i ∈ a.elems := by
  refine List.mem_map.mpr ⟨i - a.lo, List.mem_range.mpr (by omega), ?_⟩
  rw [Nat.add_sub_cancel' h1]

theorem Arr.base_mem {a : Arr} (h : a.Ok) : a.base ∈ a.elems := by
  rw [← a.elem_lo]; exact Arr.elem_mem (Nat.le_refl _) h.1

/-- The load of an element of the type. -/
def ldxO : Ty → Op
  | .num .shortInteger => .ldsxb
  | .num .shortWord | .char => .uldsxb
  | _ => .ldsx

/-- The store. -/
def stxO : Ty → Op
  | .num .shortInteger | .num .shortWord | .char => .stsxb
  | _ => .stsx

/-- From the index to the offset. -/
def idxI (a : Arr) : List OpType :=
  (if a.lo = 0 then [] else [ins .push 0 a.lo, ins .sub 0 0]) ++
  (if a.ty.size = 1 then [] else [ins .push 0 a.ty.size, ins .mul 0 0])

/-- The code of an expression at nesting level `lev` where `x` is expected. -/
def code (lev : Nat) : {l : Lvl} → Expect → E l → List OpType
  | _, _, .int n => [ins .push 0 n]
  | _, _, .bool b => [ins .push 0 (if b then -1 else 0)]
  | _, _, .char c => [ins .push 0 c.toNat]
  | _, _, .var v => [ref lev (ldO v.ty) v]
  | _, x, .not _ f => code lev x f ++ [ins .not_ 0 0]
  | _, _, .paren e => code lev .any e
  | _, _, .call f e => code lev f.expect e ++ callI f ((e.typeOf f.expect).getD .bool)
  | _, _, .index a e => code lev (.a (.num .integer)) e ++ idxI a ++ [ref lev (ldxO a.ty) a.base]
  | _, x, .factor f => code lev x f
  | _, x, .mul t op f => code lev x t ++ code lev (x.second op) f ++
      [ins (mulO op ((t.typeOf x).getD .bool)) 0 0]
  | _, x, .term (some .minus) t => code lev x t ++ [ins .neg 0 0]
  | _, x, .term _ t => code lev x t
  | _, x, .add s op t => code lev x s ++ code lev (x.later ((s.typeOf x).getD .bool)) t ++
      [ins (addO op) 0 0]
  | _, x, .simple s => code lev x s
  | _, x, .rel a op b => code lev x a ++ code lev x b ++
      [ins (relO op ((a.typeOf x).getD .bool) ((b.typeOf x).getD .bool)) 0 0]

/-- The next token does not continue an expression. -/
def Stops (rest : List Tk) : Prop :=
  mulOp (rest.headD .period) = false ∧ addOp (rest.headD .period) = false ∧
  relOps (rest.headD .period) = none ∧ rest.headD .period ≠ .in_

theorem Ends.stops {rest : List Tk} (h : Ends rest) : Stops rest := by
  cases rest with
  | nil => exact ⟨rfl, rfl, rfl, fun h => by cases h⟩
  | cons t r =>
    have h := h t rfl
    simp only [operators, List.mem_cons, List.not_mem_nil, or_false, not_or] at h
    unfold Stops
    simp only [List.headD_cons]
    cases t <;> simp_all [mulOp, addOp, relOps]

/-- How the functions of the compiler read an expression of each level. -/
def Parses (g : Cfg) (l : Lvl) (e : E l) : Prop :=
  ∀ (x : Expect) (ty : Ty) (rest : List Tk) (s : CS), e.typeOf x = some ty →
    (∀ v ∈ e.vars, Usable g.level v) → s.toks = e.toks ++ rest →
    match l with
    | .factor => ∃ N, ∀ n, N ≤ n →
        Comp.factor g n x.et s = some (ty.et, after s rest (code g.level x e))
    | .term => ∃ k N, ∀ n, N ≤ n → Comp.term g (n + k) x.et s =
        termLoop g n x.et ty.et (after s rest (code g.level x e))
    | .simple => mulOp (rest.headD .period) = false → ∃ k N, ∀ n, N ≤ n → Comp.simple g (n + k) x.et s =
        simpleLoop g n (x.later ty).et ty.et (after s rest (code g.level x e))
    | .expr => Stops rest → ∃ N, ∀ n, N ≤ n →
        expression g n x.et s = some (ty.et, after s rest (code g.level x e))

theorem et_num (t : IntTy) : (Ty.num t).et.is16 = true ∧ (Ty.num t).et.is32 = false := by
  cases t <;> exact ⟨rfl, rfl⟩

theorem et_ne_unknown (t : Ty) : t.et ≠ .unknown := by
  cases t with
  | num t => cases t <;> intro h <;> cases h
  | _ => intro h; cases h

theorem et_not32 (t : Ty) : t.et.is32 = false := by
  cases t with
  | num t => exact (et_num t).2
  | _ => rfl

theorem ordinal_et (t : Ty) : t.et.ordinal = true := by
  cases t with
  | num t => cases t <;> rfl
  | _ => rfl

theorem et_inj {a b : Ty} (h : a.et = b.et) : a = b := by
  cases a with
  | num t => cases b with
    | num t' => cases t <;> cases t' <;> first | rfl | cases h
    | _ => cases t <;> cases h
  | _ => cases b with
    | num t' => cases t' <;> cases h
    | _ => first | rfl | cases h

theorem expect_not32 (x : Expect) : x.et.is32 = false := by
  cases x with
  | a t => exact et_not32 t
  | _ => rfl

theorem kind_et (t : Ty) : t.kind.et = t.et := by
  cases t with
  | num t => cases t <;> rfl
  | _ => rfl

theorem later_et (x : Expect) (ty : Ty) :
    (if x.et = .unknown then ty.et else x.et) = (x.later ty).et := by
  cases x with
  | any => rfl
  | ordinal => rfl
  | a t =>
    exact if_neg (et_ne_unknown t)

theorem int_after {x : Expect} {n : Nat} {t : IntTy} (h : litType x n = some t) (s : CS)
    (rest : List Tk) (c : List OpType) :
    intFactor x.et (BitVec.ofNat 32 n) (after s rest c) =
      ((Ty.num t).et, after s rest (c ++ [ins .push 0 n])) := by
  have hn : n ≤ 65535 := by
    unfold litType at h
    split at h
    · omega
    · split at h
      · split at h
        · assumption
        · cases h
      · split at h
        · omega
        · cases h
  have e : (BitVec.ofNat 32 n).toNat = n := by simp; omega
  unfold intFactor
  rw [expect_not32, e, if_neg (by decide), if_pos hn, genData_after (by omega)]
  congr 1
  unfold litType at h
  have hsi : x.et = .shortInteger ↔ x = .a (.num .shortInteger) := by
    constructor
    · intro hx
      cases x with
      | a t => rw [et_inj (a := t) (b := .num .shortInteger) hx]
      | _ => cases hx
    · rintro rfl; rfl
  have hsw : x.et = .shortWord ↔ x = .a (.num .shortWord) := by
    constructor
    · intro hx
      cases x with
      | a t => rw [et_inj (a := t) (b := .num .shortWord) hx]
      | _ => cases hx
    · rintro rfl; rfl
  by_cases h1 : x = .a (.num .shortInteger) ∧ n ≤ 255
  · rw [if_pos h1] at h
    rw [if_pos ⟨h1.2, hsi.mpr h1.1⟩]
    cases h; rfl
  · rw [if_neg h1] at h
    rw [if_neg (fun h' => h1 ⟨hsi.mp h'.2, h'.1⟩)]
    by_cases h2 : x = .a (.num .shortWord)
    · rw [if_pos h2, if_pos hn] at h
      rw [if_pos (hsw.mpr h2)]
      cases h; rfl
    · rw [if_neg h2] at h
      rw [if_neg (fun h' => h2 (hsw.mp h'))]
      split at h
      · cases h; rfl
      · cases h

theorem var_after {g : Cfg} {x : Variable} (h : Usable g.level x) (s : CS)
    (rest : List Tk) (c : List OpType) :
    varFactor g ⟨x.ty.kind, x.level, x.off⟩ (after s rest c) =
      after s rest (c ++ [ref g.level (ldO x.ty) x]) := by
  obtain ⟨ty, lv, off⟩ := x
  unfold varFactor
  cases ty with
  | num t => cases t <;> exact ref_after h rfl _ _ _ _
  | _ => exact ref_after h rfl _ _ _ _

theorem not_after {ty : Ty} (h : ty ≠ .char) (s : CS) (rest : List Tk) (c : List OpType) :
    notGen ty.et (after s rest c) = after s rest (c ++ [ins .not_ 0 0]) := by
  unfold notGen
  have h1 : ty.et.is16 = true ∨ ty.et.is32 = true ∨ ty.et = .boolean := by
    cases ty with
    | num t => exact .inl (et_num t).1
    | bool => exact .inr (.inr rfl)
    | char => exact absurd rfl h
  simp only
  rw [if_pos h1, et_not32, if_neg (by decide)]
  exact genSimple_after _ _ _ _

theorem mul_after {op : MulOp} {a b ty : Ty} (h : mulType op a b = some ty) (s : CS)
    (rest : List Tk) (c : List OpType) :
    mulGen op.tk a.et (after s rest c) = after s rest (c ++ [ins (mulO op a) 0 0]) ∧
    mulCheck op.tk a.et b.et (after s rest c) = after s rest c ∧ ty = a := by
  cases a with
  | num t =>
    cases b with
    | num t' =>
      cases op
      all_goals
        refine ⟨?_, ?_, ?_⟩
        · cases t <;> exact genSimple_after _ _ _ _
        · simp only [mulCheck, isShift, MulOp.tk]
          simp
          try
            simp [mulType] at h
            rw [h.1]
            intro h'
            exact absurd rfl h'
        · simp [mulType] at h
          first | exact h.symm | exact h.2.symm
    | _ => cases op <;> cases h
  | bool =>
    cases b with
    | bool =>
      cases op <;> first | (cases h; done) | skip
      all_goals
        cases h
        exact ⟨genSimple_after _ _ _ _, by simp [mulCheck], rfl⟩
    | _ => cases op <;> cases h
  | char => cases op <;> cases h

theorem add_after {op : AddOp} {a b ty : Ty} (h : addType op a b = some ty) (s : CS)
    (rest : List Tk) (c : List OpType) :
    addGen op.tk a.et (after s rest c) = after s rest (c ++ [ins (addO op) 0 0]) ∧
    addCheck a.et b.et (after s rest c) = after s rest c ∧ ty = a ∧ a ≠ .char := by
  cases a with
  | num t =>
    cases b with
    | num t' =>
      cases op
      all_goals
        refine ⟨?_, ?_, ?_, by simp⟩
        · cases t <;> exact genSimple_after _ _ _ _
        · unfold addCheck
          rw [if_pos (.inr (.inl ⟨(et_num t).1, (et_num t').1⟩))]
        · simp [addType] at h
          exact h.symm
    | _ => cases op <;> cases h
  | bool =>
    cases b with
    | bool =>
      cases op <;> first | (cases h; done) | skip
      all_goals
        cases h
        exact ⟨genSimple_after _ _ _ _, by simp [addCheck], rfl, by simp⟩
    | _ => cases op <;> cases h
  | char => cases op <;> cases h

theorem rel_after {op : RelOp} {a b ty : Ty} (h : relType op a b = some ty) :
    ∃ r, relOps op.tk = some r ∧ ty = .bool ∧ ∀ (s : CS) (rest : List Tk) (c : List OpType),
      relGen r a.et b.et (after s rest c) = (.boolean, after s rest (c ++ [ins (relO op a b) 0 0])) := by
  cases a with
  | num t =>
    cases b with
    | num t' =>
      cases op
      all_goals
        refine ⟨_, rfl, ?_, ?_⟩
        · simp only [relType, Option.map_eq_some_iff] at h
          obtain ⟨_, _, rfl⟩ := h
          rfl
        · intro s rest c
          simp only [relType, Option.map_eq_some_iff] at h
          obtain ⟨u, hu, _⟩ := h
          cases t <;> cases t' <;> first | (cases hu; done) | exact congrArg _ (genSimple_after _ _ _ _)
    | _ => cases op <;> cases h
  | bool =>
    cases b with
    | bool =>
      cases op <;> first | (cases h; done) | skip
      all_goals
        cases h
        exact ⟨_, rfl, rfl, fun s rest c => congrArg _ (genSimple_after _ _ _ _)⟩
    | _ => cases op <;> cases h
  | char =>
    cases b with
    | char =>
      cases op <;> first | (cases h; done) | skip
      all_goals
        cases h
        exact ⟨_, rfl, rfl, fun s rest c => congrArg _ (genSimple_after _ _ _ _)⟩
    | _ => cases op <;> cases h

theorem mulOp_tk (op : MulOp) : mulOp op.tk = true ∧ isShift op.tk = op.isShift := by
  cases op <;> exact ⟨rfl, rfl⟩
theorem addOp_tk (op : AddOp) : addOp op.tk = true ∧ mulOp op.tk = false := by
  cases op <;> exact ⟨rfl, rfl⟩
theorem relOp_tk (op : RelOp) : addOp op.tk = false ∧ mulOp op.tk = false ∧ op.tk ≠ .in_ := by
  cases op <;> exact ⟨rfl, rfl, fun h => by cases h⟩

/-- The standard function of the compiler. -/
def Fn.std : Fn → StdFn
  | .abs => .abs | .sqr => .sqr | .pred => .pred | .succ => .succ | .ord => .ord | .odd => .odd
  | .chr => .chr

theorem call_after {f : Fn} {a ty : Ty} (h : f.type a = some ty) (s : CS)
    (rest : List Tk) (c : List OpType) :
    f.std.gen a.et (after s (.rparen :: rest) c) = (ty.et, after s rest (c ++ callI f a)) := by
  have e : ∀ c, (after s (.rparen :: rest) c).expect .rparen = after s rest c :=
    fun c => expect_after s _ rest c
  cases f with
  | abs =>
    cases a with
    | num t =>
      cases t <;> cases h
      simp only [Fn.std, StdFn.gen, Ty.et, if_true, genSimple_after, e]
      rfl
    | _ => cases h
  | sqr =>
    cases a with
    | num t =>
      cases h
      cases t <;> simp [Fn.std, StdFn.gen, Ty.et, genSimple_after, e, callI, mulO, IntTy.signed]
    | _ => cases h
  | pred => cases h; simp [Fn.std, StdFn.gen, genSimple_after, e, callI]
  | succ => cases h; simp [Fn.std, StdFn.gen, genSimple_after, e, callI]
  | ord => cases h; simp [Fn.std, StdFn.gen, e, callI, Ty.et]
  | odd =>
    cases a with
    | num t =>
      cases h
      simp [Fn.std, StdFn.gen, genSimple_after, genData_after, e, callI, Ty.et]
    | _ => cases h
  | chr =>
    cases a with
    | num t => cases t <;> cases h; simp [Fn.std, StdFn.gen, e, callI, Ty.et]
    | _ => cases h

/-- The first token of a term is not a sign. -/
theorem term_head {l : Lvl} (e : E l) : (l = .factor ∨ l = .term) →
    ∃ t r, e.toks = t :: r ∧ t ≠ .plus ∧ t ≠ .minus := by
  induction e with
  | call f _ => intro _; exact ⟨_, _, rfl, by cases f <;> decide, by cases f <;> decide⟩
  | not b _ => intro _; exact ⟨_, _, rfl, by cases b <;> decide, by cases b <;> decide⟩
  | factor f ih => intro _; exact ih (.inl rfl)
  | mul t op f ih _ =>
    intro _
    obtain ⟨k, r, h, h1, h2⟩ := ih (.inr rfl)
    exact ⟨k, r ++ op.tk :: f.toks, by simp [E.toks, h], h1, h2⟩
  | term _ _ | add _ _ _ | simple _ | rel _ _ _ => intro h; rcases h with h | h <;> cases h
  | _ =>
    intro _
    refine ⟨_, _, rfl, ?_, ?_⟩
    · intro h; cases h
    · intro h; cases h

/-- The equation of `factor` (the one Lean would generate is expensive). -/
theorem factor_succ (g : Cfg) (n : Nat) (find : ET) (s : CS) : factor g (n + 1) find s =
    match s.tok with
    | .ident => some (.unknown, s.err)
    | .int k => let (t, s) := intFactor find k s; some (t, s.next)
    | .bool k => some (.boolean, (genData .push k.toInt s).next)
    | .char k => some (.char, (genData .push k.toInt s).next)
    | .var v => some (v.kind.et, (varFactor g v s).next)
    | .lparen => do
        let (t, s) ← expression g n .unknown s.next
        pure (t, s.expect .rparen)
    | .tilde | .not_ => do
        let (t, s) ← factor g n find s.next
        pure (t, notGen t s)
    | .other c => match stdFn c with
      | some f => do
        let (t, s) ← expression g n f.find (s.next.expect .lparen)
        pure (f.gen t s)
      | none => none
    | .arr a =>
      if s.next.tok = .lbracket then do
        let s ← arrayIndex g n true a.dims s.next
        pure (a.kind.et, elementFactor g a s)
      else none
    | .str _ | .file _ => none
    | _ => some (.unknown, s.err) := rfl

theorem size_cases (t : Ty) : t.size = 1 ∨ t.size = 2 := by
  cases t with
  | num t => cases t <;> first | exact .inl rfl | exact .inr rfl
  | _ => first | exact .inl rfl | exact .inr rfl

/-- From the index to the offset. -/
theorem index_after {a : Arr} (h : a.Ok) (s : CS) (rest : List Tk) (c : List OpType) :
    indexGen true a.lo a.ty.size (after s rest c) = after s rest (c ++ idxI a) := by
  have h1 : a.lo % 65536 = a.lo := by have := h.1; have := h.2; omega
  have h2 : a.ty.size % 65536 = a.ty.size := by rcases size_cases a.ty with e | e <;> rw [e]
  have h3 := h.1
  have h4 := h.2
  unfold indexGen idxI
  rw [h1, h2]
  by_cases e : a.lo = 0 <;> rcases size_cases a.ty with e' | e'
  all_goals simp only [e, e', ne_eq, not_true_eq_false, not_false_eq_true, if_true, if_false,
    List.append_nil, List.nil_append, Nat.reduceEqDiff]
  · rw [genData_after (by omega), genSimple_after]; simp
  · rw [genData_after (by omega), genSimple_after]; simp
  · rw [genData_after (by omega), genSimple_after, genData_after (by omega), genSimple_after]; simp

theorem elem_after {g : Cfg} {a : Arr} (h : Usable g.level a.base) (s : CS) (rest : List Tk)
    (c : List OpType) :
    elementFactor g ⟨a.ty.kind, a.level, a.off, [(a.lo, a.ty.size)]⟩ (after s rest c) =
      after s rest (c ++ [ref g.level (ldxO a.ty) a.base]) := by
  have key : ∀ (o : Op) (k : Kind), (level0 o).isSome →
      stackRef g o ⟨k, a.level, a.off⟩ (after s rest c) =
        after s rest (c ++ [ref g.level o a.base]) :=
    fun o k ho => ref_after (x := a.base) h ho k s rest c
  unfold elementFactor
  generalize a.ty = ty
  cases ty with
  | num t => cases t <;> exact key _ _ rfl
  | _ => exact key _ _ rfl

/-- The last check of an expression. -/
theorem typeCheck_after {x : Expect} {t ty : Ty} (h : (match x with
      | .a t' => if t = t' then some t else none
      | _ => some t) = some ty) (s : CS) : typeCheck x.et t.et s = s ∧ ty = t := by
  unfold typeCheck
  cases x with
  | any => cases h; exact ⟨by rw [if_pos (.inl rfl)], rfl⟩
  | ordinal => cases h; exact ⟨by rw [if_pos (.inr (.inr ⟨rfl, ordinal_et _⟩))], rfl⟩
  | a t' =>
    simp only at h
    split at h
    · next e =>
      cases h; cases e
      exact ⟨by rw [if_pos (.inr (.inl rfl))], rfl⟩
    · cases h

theorem parses (g : Cfg) {l : Lvl} (e : E l) : Parses g l e := by
  induction e with
  | int k =>
    intro x ty rest s ht hv hs
    simp only [E.typeOf, Option.map_eq_some_iff] at ht
    obtain ⟨t, ht, rfl⟩ := ht
    refine ⟨1, ?_⟩
    intro n hn
    obtain ⟨m, rfl⟩ : ∃ m, n = m + 1 := ⟨n - 1, by omega⟩
    rw [after_self hs]
    simp only [E.toks, List.singleton_append, factor_succ, after_tok, int_after ht, after_after]
    rfl
  | bool b =>
    intro x ty rest s ht hv hs
    cases ht
    refine ⟨1, ?_⟩
    intro n hn
    obtain ⟨m, rfl⟩ : ∃ m, n = m + 1 := ⟨n - 1, by omega⟩
    rw [after_self hs]
    simp only [E.toks, List.singleton_append, factor_succ, after_tok, after_after]
    rw [genData_after (by cases b <;> decide), after_next]
    cases b <;> rfl
  | char c =>
    intro x ty rest s ht hv hs
    simp only [E.typeOf] at ht
    split at ht
    · next hc =>
      cases ht
      refine ⟨1, ?_⟩
      intro n hn
      obtain ⟨m, rfl⟩ : ∃ m, n = m + 1 := ⟨n - 1, by omega⟩
      rw [after_self hs]
      have e : (c.zeroExtend 32).toInt = c.toNat := by
        rw [BitVec.toInt_eq_toNat_cond]
        have h1 : (c.zeroExtend 32).toNat = c.toNat := by simp; omega
        rw [h1, if_pos (by omega)]
      simp only [E.toks, List.singleton_append, factor_succ, after_tok, after_after, e]
      rw [genData_after (by omega), after_next]
      rfl
    · cases ht
  | var v =>
    intro x ty rest s ht hv hs
    cases ht
    refine ⟨1, ?_⟩
    intro n hn
    obtain ⟨m, rfl⟩ : ∃ m, n = m + 1 := ⟨n - 1, by omega⟩
    rw [after_self hs]
    simp only [E.toks, Variable.tk, List.singleton_append, factor_succ, after_tok, after_after]
    rw [var_after (hv v (by simp [E.vars])), after_next, kind_et]
    rfl
  | not tilde f ih =>
    intro x ty rest s ht hv hs
    have hf : f.typeOf x = some ty ∧ ty ≠ .char := by
      simp only [E.typeOf] at ht
      split at ht
      · next h => cases ht; exact ⟨h, by simp⟩
      · next h => cases ht; exact ⟨h, by simp⟩
      · cases ht
    obtain ⟨N, hN⟩ := ih x ty rest s.next hf.1 hv (by simp [CS.next, hs, E.toks])
    refine ⟨N + 1, ?_⟩
    intro n hn
    obtain ⟨m, rfl⟩ : ∃ m, n = m + 1 := ⟨n - 1, by omega⟩
    have htok : s.tok = if tilde then .tilde else .not_ := by simp [CS.tok, hs, E.toks]
    have e : factor g (m + 1) x.et s = (do
        let (t, s) ← factor g m x.et s.next
        pure (t, notGen t s)) := by
      rw [factor_succ, htok]
      cases tilde <;> rfl
    rw [e, hN m (by omega)]
    show some (ty.et, notGen ty.et _) = _
    rw [not_after hf.2]
    rfl
  | paren e ih =>
    intro x ty rest s ht hv hs
    obtain ⟨N, hN⟩ := ih .any ty (.rparen :: rest) s.next ht hv (by simp [CS.next, hs, E.toks])
      ⟨rfl, rfl, rfl, fun h => by cases h⟩
    refine ⟨N + 1, ?_⟩
    intro n hn
    obtain ⟨m, rfl⟩ : ∃ m, n = m + 1 := ⟨n - 1, by omega⟩
    have htok : s.tok = .lparen := by simp [CS.tok, hs, E.toks]
    rw [factor_succ, htok]
    simp only
    show (do let (t, s) ← expression g m Expect.any.et s.next; pure (t, s.expect .rparen)) = _
    rw [hN m (by omega)]
    show some (ty.et, _) = _
    rw [expect_after]
    rfl
  | call f e ih =>
    intro x ty rest s ht hv hs
    simp only [E.typeOf, Option.bind_eq_bind, Option.bind_eq_some_iff] at ht
    obtain ⟨a, ha, hty⟩ := ht
    obtain ⟨N, hN⟩ := ih f.expect a (.rparen :: rest) s.next.next ha hv
      (by simp [CS.next, hs, E.toks]) ⟨rfl, rfl, rfl, fun h => by cases h⟩
    refine ⟨N + 1, ?_⟩
    intro n hn
    obtain ⟨m, rfl⟩ : ∃ m, n = m + 1 := ⟨n - 1, by omega⟩
    have htok : s.tok = f.tk := by simp [CS.tok, hs, E.toks]
    have hl : s.next.expect .lparen = s.next.next := by
      unfold CS.expect
      rw [if_pos]
      simp [CS.tok, CS.next, hs, E.toks]
    have e' : factor g (m + 1) x.et s = (do
        let (t, s) ← expression g m f.expect.et s.next.next
        pure (f.std.gen t s)) := by
      rw [factor_succ, htok]
      rw [← hl]
      cases f <;> rfl
    rw [e', hN m (by omega)]
    show some (f.std.gen a.et (after s.next.next (.rparen :: rest) (code g.level f.expect e))) = _
    rw [call_after hty]
    simp only [code, ha]
    rfl
  | index a e ih =>
    intro x ty rest s ht hv hs
    simp only [E.typeOf] at ht
    split at ht
    · next hok =>
      cases ht
      obtain ⟨N, hN⟩ := ih (.a (.num .integer)) _ (.rbracket :: rest) s.next.next hok.2
        (fun v h => hv v (by simp [E.vars, h]))
        (by simp [CS.next, hs, E.toks]) ⟨rfl, rfl, rfl, fun h => by cases h⟩
      refine ⟨N + 2, ?_⟩
      intro n hn
      obtain ⟨m, rfl⟩ : ∃ m, n = m + 2 := ⟨n - 2, by omega⟩
      have htok : s.tok = a.tk := by simp [CS.tok, hs, E.toks]
      have hl : s.next.tok = .lbracket := by
        simp [CS.tok, CS.next, hs, E.toks]
      rw [factor_succ, htok]
      simp only [Arr.tk, hl, if_true]
      rw [arrayIndex]
      rw [show ET.integer = (Expect.a (.num .integer)).et from rfl, hN m (by omega)]
      simp only [Option.bind_eq_bind, Option.bind_some]
      rw [index_after hok.1, after_tok, if_neg (by decide), expect_after]
      simp only [Option.pure_def, Option.bind_some]
      rw [elem_after (hv _ (by simp [E.vars, Arr.base_mem hok.1])), kind_et]
      simp only [code, List.append_assoc]
      rfl
    · cases ht
  | factor f ih =>
    intro x ty rest s ht hv hs
    obtain ⟨N, hN⟩ := ih x ty rest s ht hv hs
    refine ⟨1, N, ?_⟩
    intro n hn
    rw [term, hN n hn]
    rfl
  | mul t op f iht ihf =>
    intro x ty rest s ht hv hs
    simp only [E.typeOf, Option.bind_eq_bind, Option.bind_eq_some_iff] at ht
    obtain ⟨a, ha, b, hb, hty⟩ := ht
    obtain ⟨k, N, hN⟩ := iht x a (op.tk :: f.toks ++ rest) s ha
      (fun v h => hv v (by simp [E.vars, h])) (by simp [hs, E.toks])
    obtain ⟨M, hM⟩ := ihf (x.second op) b rest (after s (f.toks ++ rest) (code g.level x t)) hb
      (fun v h => hv v (by simp [E.vars, h])) rfl
    refine ⟨1 + k, max N M, ?_⟩
    intro n hn
    rw [← Nat.add_assoc, hN (n + 1) (by omega)]
    obtain ⟨h1, h2, rfl⟩ := mul_after hty s rest (code g.level x t ++ code g.level (x.second op) f)
    have e : factor g n (x.second op).et
        (after s (op.tk :: f.toks ++ rest) (code g.level x t)).next = some (b.et,
          after s rest (code g.level x t ++ code g.level (x.second op) f)) := by
      rw [show (after s (op.tk :: f.toks ++ rest) (code g.level x t)).next =
        after s (f.toks ++ rest) (code g.level x t) from rfl, hM n (by omega), after_after]
    rw [termLoop]
    simp only [List.cons_append, after_tok, (mulOp_tk op).1, (mulOp_tk op).2, if_true]
    simp only [List.cons_append] at e
    cases hop : op.isShift
    · have hx : x.second op = x := by simp [Expect.second, hop]
      rw [hx] at e h1 h2
      rw [if_neg (by decide), e]
      simp only [Option.bind_eq_bind, Option.bind_some]
      rw [h2, h1]
      simp only [code, ha, hx]
      rfl
    · have hx : x.second op = .ordinal := by simp [Expect.second, hop]
      rw [hx] at e h1 h2
      rw [if_pos rfl]
      rw [show ET.anyOrdinal = Expect.ordinal.et from rfl, e]
      simp only [Option.bind_eq_bind, Option.bind_some]
      have : ∀ s, shiftType b.et s = (b.et, s) := by
        intro s
        unfold shiftType
        rw [if_neg]
        rw [et_not32]
        simp [et_ne_unknown]
      rw [this]
      simp only
      rw [h2, h1]
      simp only [code, ha, hx]
      rfl
  | term sign t ih =>
    intro x ty rest s ht hv hs
    intro hr
    have fin : ∀ m (u : Ty), termLoop g (m + 1) x.et u.et (after s rest (code g.level x t)) =
        some (u.et, after s rest (code g.level x t)) := by
      intro m u
      rw [termLoop]
      simp only [after_tok', hr]
      rfl
    cases sign with
    | none =>
      obtain ⟨tk, r, htk, hp, hm⟩ := term_head t (.inr rfl)
      obtain ⟨k, N, hN⟩ := ih x ty rest s ht hv hs
      have htok : s.tok = tk := by simp [CS.tok, hs, E.toks, htk]
      refine ⟨1, N + k + 1, ?_⟩
      intro n hn
      rw [simple]
      simp only [htok, hp, hm, or_self, if_false]
      rw [show n = (n - k - 1) + 1 + k by omega, hN _ (by omega), fin]
      simp only [Option.bind_eq_bind, Option.bind_some, later_et]
      rfl
    | some sg =>
      have ht' : t.typeOf x = some ty ∧ ∃ u, ty = .num u := by
        simp only [E.typeOf] at ht
        split at ht
        · next h => cases ht; exact ⟨h, _, rfl⟩
        · cases ht
      obtain ⟨ht', u, rfl⟩ := ht'
      obtain ⟨k, N, hN⟩ := ih x (.num u) rest s.next ht' hv (by simp [CS.next, hs, E.toks])
      have e : ∀ c, after s.next rest c = after s rest c := fun c => rfl
      simp only [e] at hN
      have htok : s.tok = sg.tk := by simp [CS.tok, hs, E.toks]
      refine ⟨1, N + k + 1, ?_⟩
      intro n hn
      rw [simple]
      cases sg with
      | plus =>
        simp only [htok, Sign.tk, reduceCtorEq, or_false, if_true, if_false]
        rw [show n = (n - k - 1) + 1 + k by omega, hN _ (by omega), fin]
        simp only [Option.bind_eq_bind, Option.bind_some, later_et]
        rfl
      | minus =>
        simp only [htok, Sign.tk, reduceCtorEq, false_or, if_true]
        rw [show n = (n - k - 1) + 1 + k by omega, hN _ (by omega), fin]
        simp only [Option.bind_eq_bind, Option.bind_some, later_et]
        rw [negGen, (et_num u).1, if_pos rfl, genSimple_after]
        rfl
  | add s op t ihs iht =>
    intro x ty rest cs ht hv hs hr
    simp only [E.typeOf, Option.bind_eq_bind, Option.bind_eq_some_iff] at ht
    obtain ⟨a, ha, b, hb, hty⟩ := ht
    obtain ⟨k, N, hN⟩ := ihs x a (op.tk :: t.toks ++ rest) cs ha
      (fun v h => hv v (by simp [E.vars, h])) (by simp [hs, E.toks]) (addOp_tk op).2
    obtain ⟨k', M, hM⟩ := iht (x.later a) b rest (after cs (t.toks ++ rest) (code g.level x s)) hb
      (fun v h => hv v (by simp [E.vars, h])) rfl
    refine ⟨1 + k, N + M + k' + 1, ?_⟩
    intro n hn
    rw [← Nat.add_assoc, hN (n + 1) (by omega)]
    obtain ⟨h1, h2, rfl, hch⟩ := add_after hty cs rest
      (code g.level x s ++ code g.level (x.later a) t)
    have hM' : term g n (x.later ty).et (after cs (op.tk :: t.toks ++ rest) (code g.level x s)).next =
        some (b.et, after cs rest (code g.level x s ++ code g.level (x.later ty) t)) := by
      rw [show (after cs (op.tk :: t.toks ++ rest) (code g.level x s)).next =
        after cs (t.toks ++ rest) (code g.level x s) from rfl]
      rw [show n = (n - k' - 1) + 1 + k' by omega, hM _ (by omega), after_after, termLoop]
      simp only [after_tok', hr]
      rfl
    rw [simpleLoop]
    simp only [List.cons_append, after_tok, (addOp_tk op).1, if_true]
    refine (if_neg (show ¬ (op.tk = .plus ∧ ty.et = .char) from
      fun h => hch (et_inj (b := .char) h.2))).trans ?_
    simp only [List.cons_append] at hM'
    rw [hM']
    simp only [Option.bind_eq_bind, Option.bind_some]
    rw [h2, h1]
    simp only [code, ha]
    rfl
  | simple s ih =>
    intro x ty rest cs ht hv hs hr
    simp only [E.typeOf, Option.bind_eq_bind, Option.bind_eq_some_iff] at ht
    obtain ⟨t, ha, hty⟩ := ht
    obtain ⟨k, N, hN⟩ := ih x t rest cs ha hv hs hr.1
    obtain ⟨hc, rfl⟩ := typeCheck_after hty (after cs rest (code g.level x s))
    refine ⟨N + k + 2, ?_⟩
    intro n hn
    obtain ⟨m, rfl⟩ : ∃ m, n = m + 1 := ⟨n - 1, by omega⟩
    rw [expression, show m = (m - k - 1) + 1 + k by omega, hN _ (by omega), simpleLoop]
    simp only [after_tok', hr.2.1, Option.bind_eq_bind]
    simp only [Bool.false_eq_true, if_false, Option.bind_some, after_tok', hr.2.2.1, hr.2.2.2]
    rw [hc]
    rfl
  | rel a op b iha ihb =>
    intro x ty rest cs ht hv hs hr
    simp only [E.typeOf, Option.bind_eq_bind, Option.bind_eq_some_iff] at ht
    obtain ⟨ta, ha, tb, hb, t, hrel, hty⟩ := ht
    obtain ⟨k, N, hN⟩ := iha x ta (op.tk :: b.toks ++ rest) cs ha
      (fun v h => hv v (by simp [E.vars, h])) (by simp [hs, E.toks]) (relOp_tk op).2.1
    obtain ⟨k', M, hM⟩ := ihb x tb rest (after cs (b.toks ++ rest) (code g.level x a)) hb
      (fun v h => hv v (by simp [E.vars, h])) rfl hr.1
    obtain ⟨r, h1, rfl, h2⟩ := rel_after hrel
    obtain ⟨hc, rfl⟩ := typeCheck_after hty (after cs rest (code g.level x (.rel a op b)))
    refine ⟨N + M + k + k' + 2, ?_⟩
    intro n hn
    obtain ⟨m, rfl⟩ : ∃ m, n = m + 1 := ⟨n - 1, by omega⟩
    have e1 : simple g m x.et cs =
        some (ta.et, after cs (op.tk :: b.toks ++ rest) (code g.level x a)) := by
      rw [show m = (m - k - 1) + 1 + k by omega, hN _ (by omega), simpleLoop]
      simp only [List.cons_append, after_tok, (relOp_tk op).1]
      rfl
    have e2 : simple g m x.et (after cs (op.tk :: b.toks ++ rest) (code g.level x a)).next =
        some (tb.et, after cs rest (code g.level x a ++ code g.level x b)) := by
      rw [show (after cs (op.tk :: b.toks ++ rest) (code g.level x a)).next =
        after cs (b.toks ++ rest) (code g.level x a) from rfl]
      rw [show m = (m - k' - 1) + 1 + k' by omega, hM _ (by omega), after_after, simpleLoop]
      simp only [after_tok', hr.2.1]
      rfl
    rw [expression, e1]
    simp only [Option.bind_eq_bind, Option.bind_some]
    simp only [List.cons_append, after_tok] at e2 ⊢
    refine (if_neg (relOp_tk op).2.2).trans ?_
    rw [h1]
    simp only
    rw [e2]
    simp only [Option.bind_some]
    rw [h2]
    simp only [code, ha, hb] at hc ⊢
    exact congrArg (fun z => some (_, z)) hc

end Pas.Src
