import Verif.Lemmas.CompRun
import Verif.Props.Encoding

/-! Properties of compiled expressions (C48). -/
namespace Pas.Src
open Pas.Spec Pas.Comp

/-- C48 (partial: the 16-bit ordinal types; no long integers, reals, strings, sets,
records or pointers, arrays only with one index and elements of these types, and of the functions only ABS, SQR, PRED, SUCC, ORD, ODD and CHR; well-typed expressions as defined by `E.typeOf`, the cases that the
compiler accepts beyond that are wrong, see the violations below): the compiler accepts every
well-typed expression without an error and finds its type, and wherever the generated code is in a
program, running it pushes exactly one word, the value of the expression, and changes no word of
the memory up to the top of the stack (so no variable). -/
theorem C48_expression_partial (g : Cfg) (lib : Lib) (Γ : Env) (hΓ : Γ.Ok) (hg : g.level = Γ.level)
    (e : E .expr) (x : Expect) (ty : Ty) (rest : List Tk) (cs : CS)
    (typed : e.typeOf x = some ty) (declared : ∀ v ∈ e.vars, Γ.vars v)
    (toks : cs.toks = e.toks ++ rest) (ends : Ends rest) :
    ∃ (N : Nat) (c : List OpType),
      (∀ n, N ≤ n → expression g n x.et cs = some (ty.et, { cs with
        toks := rest
        out := cs.out ++ c })) ∧
      ∀ (σ : Store) (v : Val) (s : VM) (b : Nat) (addr : Nat → Word) (p : List OpType) (k : Nat),
        e.eval σ x = some v → Γ.In s b → Γ.Holds s.mem σ → b ≤ s.sp.toNat / 2 →
        RoomFor s e.toks.length → At p k c →
        v.ty = ty ∧ ∃ t, PSteps lib addr p (k, s) (k + c.length, t) ∧
          Pushed s e.toks.length v.word t ∧ Γ.Holds t.mem σ := by
  obtain ⟨N, hN⟩ := parses g e x ty rest cs typed
    (fun v hv => by rw [hg]; exact hΓ.usable (declared v hv)) toks ends.stops
  refine ⟨N, code Γ.level x e, by rw [← hg]; exact hN, ?_⟩
  intro σ v s b addr p k he hi hh hb hr hat
  obtain ⟨t, h1, h2, _, h4⟩ := runs lib hΓ e x ty v s typed he declared hi hh hb hr
  exact ⟨h4, t, h1.steps hat, h2, (h2.same hb).holds hi hh⟩

/-! ### A concrete case -/

def xA : Variable := ⟨.num .integer, 0, 0⟩
def xB : Variable := ⟨.num .shortInteger, 0, 2⟩
def xC : Variable := ⟨.bool, 1, 0⟩
def xD : Variable := ⟨.num .word, 1, -2⟩

/-- Two variables of the program and two of a procedure. -/
def exEnv : Env where
  level := 1
  vars x := x ∈ [xA, xB, xC, xD]
  procs _ := False
  addr x := if x = xA then 16 else if x = xB then 18 else if x = xC then 50 else 38

/-- The stack begins at address 16, the frame of the procedure at 40. -/
def exState : VM where
  mem i := if i = 8 then 1000#16 else if i = 9 then 0xaafb#16 else if i = 25 then 0xffff#16
    else if i = 19 then 7#16 else if i = 24 then 1#16 else if i = 20 then 6#16 else 0#16
  words := 200
  spb := 16#16
  sp := 60#16
  csp := 0#16
  hpb := 0#16
  hsp := 0#16
  fp := 40#16
  rop := 0#16
  pc := 0#16
  lsp := 0#16
  strSize := 0#16
  roSize := 0#16
  stkSize := 0#16
  hpSize := 0#16
  freeChunks := none

def exStore : Store := fun x =>
  if x = xA then some (.num .integer 1000) else if x = xB then some (.num .shortInteger (-5))
  else if x = xC then some (.bool true) else some (.num .word 7)

theorem exEnv_ok : exEnv.Ok where
  level := by decide
  outer := by intro x hx; revert x; simp only [exEnv]; decide
  offset0 := by intro x hx; revert x; simp only [exEnv]; decide
  offset := by intro x hx; revert x; simp only [exEnv]; decide
  aligned := by intro x hx; revert x; simp only [exEnv]; decide
  disjoint := by
    intro x y a hx hy h1 h2
    have key : ∀ x ∈ [xA, xB, xC, xD], ∀ y ∈ [xA, xB, xC, xD], x ≠ y →
        exEnv.addr x + x.ty.size ≤ exEnv.addr y ∨ exEnv.addr y + y.ty.size ≤ exEnv.addr x := by
      decide
    by_cases h : x = y
    · exact h
    · have := key x hx y hy h
      unfold Env.Owns at h1 h2
      omega
  procs := by intro q hq; exact hq.elim

theorem exEnv_in : exEnv.In exState 29 where
  inside := by intro x hx; revert x; simp only [exEnv]; decide
  bound := by decide
  global := by
    intro x hx h0
    revert x; simp only [exEnv]; decide
  frame := by
    intro x hx h0
    refine ⟨40#16, ?_, ?_⟩
    · have : exEnv.level - x.level = 0 := by revert x; simp only [exEnv]; decide
      rw [this]; exact .here _
    · revert x; simp only [exEnv]; decide
  levels := by
    have apart : ∀ j ∈ [7, 20, 24], exEnv.Apart 29 j := by
      intro j hj
      refine ⟨by revert j; decide, fun y a hy ho => ?_⟩
      have hy : y = xA ∨ y = xB ∨ y = xC ∨ y = xD := by simpa [exEnv] using hy
      unfold Env.Owns at ho
      simp only [List.mem_cons, List.not_mem_nil, or_false] at hj
      rcases hy with rfl | rfl | rfl | rfl <;> simp [exEnv, xA, xB, xC, xD, Ty.size] at ho <;> omega
    intro j hj
    have hj : j ≤ 1 := hj
    rcases Nat.le_one_iff_eq_zero_or_eq_one.1 hj with rfl | rfl
    · exact ⟨_, .here _, apart 24 (by decide), by decide⟩
    · exact ⟨6#16, .out (by decide) (apart 20 (by decide)) (.here _), apart 7 (by decide), by decide⟩
  lsp := by decide

theorem exEnv_holds : exEnv.Holds exState.mem exStore := by
  intro x v hx hv
  have hx : x = xA ∨ x = xB ∨ x = xC ∨ x = xD := by simpa [exEnv] using hx
  rcases hx with rfl | rfl | rfl | rfl <;> cases hv
  · exact ⟨⟨rfl, by decide⟩, by decide, by decide⟩
  · exact ⟨⟨rfl, by decide⟩, by decide, by decide⟩
  · exact ⟨trivial, by decide, by decide⟩
  · exact ⟨⟨rfl, by decide⟩, by decide, by decide⟩

/-- `xA - xB * 2 > 1000` -/
def exExpr : E .expr :=
  .rel (.add (.term none (.factor (.var xA))) .sub (.mul (.factor (.var xB)) .mul (.int 2))) .gt
    (.term none (.factor (.int 1000)))

/-- The hypotheses of `C48_expression_partial` are met by an expression with the value TRUE. -/
example : exExpr.typeOf (.a .bool) = some .bool ∧ exExpr.eval exStore (.a .bool) = some (.bool true) ∧
    (∀ v ∈ exExpr.vars, exEnv.vars v) ∧ exEnv.Ok ∧ exEnv.In exState 29 ∧
    exEnv.Holds exState.mem exStore ∧ RoomFor exState exExpr.toks.length ∧
    Ends [.then_] ∧ 29 ≤ exState.sp.toNat / 2 := by
  refine ⟨by decide, by decide, ?_, exEnv_ok, exEnv_in, exEnv_holds,
    ⟨by decide, by decide⟩, ?_, by decide⟩
  · intro v hv; revert v; simp only [exEnv]; decide
  · intro t h; cases h; decide

/-- `odd(succ(sqr(xB))) or (chr(ord('a') + 2) = pred('e')) and (abs(-xA) = 7)`: standard functions;
the value is FALSE. -/
def exCalls : E .expr :=
  .simple (.add (.term none (.factor (.call .odd (.simple (.term none (.factor (.call .succ (.simple
    (.term none (.factor (.call .sqr (.simple (.term none (.factor (.var xB)))))))))))))))
    .or (.mul (.factor (.paren (.rel
        (.term none (.factor (.call .chr (.simple (.add (.term none (.factor (.call .ord (.simple
          (.term none (.factor (.char 97#8))))))) .add (.factor (.int 2)))))))
        .eq (.term none (.factor (.call .pred (.simple (.term none (.factor (.char 101#8)))))))))) .and
      (.paren (.rel (.term none (.factor (.call .abs (.simple (.term (some .minus)
        (.factor (.var xA)))))) ) .eq (.term none (.factor (.int 7)))))))

example : exCalls.typeOf .any = some .bool ∧ exCalls.eval exStore .any = some (.bool false) ∧
    (∀ v ∈ exCalls.vars, exEnv.vars v) ∧
    RoomFor exState exCalls.toks.length := by
  refine ⟨by decide, by decide, ?_, ⟨by decide, by decide⟩⟩
  intro v hv; revert v; simp only [exEnv]; decide

/-! ### Violations -/

/-- A compiler state with the tokens. -/
def start (ts : List Tk) : CS := ⟨ts, [], 0, 0#16, 0#16, 0#16, 0, []⟩

/-- The number of words that the code adds to the stack when it is run on the state. -/
def grows (c : List OpType) (s : VM) : Option Int :=
  match execSeq idleLib c s with
  | .ok (none, t) => some ((t.sp - s.sp).toInt / 2)
  | _ => none

/-- Violation of C48: `xC < xC` with a Boolean variable `xC` is accepted, but no comparison is
generated: the code leaves two words on the stack. -/
theorem C48_violation_boolean_order (g : Cfg) (hg : g.level = 1) :
    ∃ c, expression g 10 .boolean (start [xC.tk, .lt, xC.tk, .then_]) =
      some (.boolean, { start [.then_] with out := c }) ∧ grows c exState = some 2 := by
  refine ⟨[ins .lds 0 0, ins .lds 0 0], ?_, by decide +kernel⟩
  obtain ⟨l, f⟩ := g
  cases hg
  rfl

/-- The word that the code pushes when it is run on the state. -/
def pushes (c : List OpType) (s : VM) : Option Word :=
  match execSeq idleLib c s with
  | .ok (none, t) => if t.sp = s.sp + 2#16 then some (t.mem (t.sp.toNat / 2)) else none
  | _ => none

/-- The token of TRUE. -/
def trueTk : Tk := .bool 0xffffffff#32
@[inherit_doc trueTk] def falseTk : Tk := .bool 0#32

/-- Violation of C48: ORD(TRUE) is -1, not 1. -/
theorem C48_violation_ord (g : Cfg) :
    ∃ c, expression g 20 .integer (start [Fn.ord.tk, .lparen, trueTk, .rparen, .semi]) =
      some (.integer, { start [.semi] with out := c }) ∧
      pushes c exState = some (Val.num .integer (-1)).word :=
  ⟨[ins .push 0 (-1)], rfl, by decide +kernel⟩

/-- Violation of C48: `SUCC(FALSE) = TRUE` and `PRED(TRUE) = FALSE` are accepted and yield FALSE,
because TRUE is represented by -1 but SUCC adds 1 and PRED subtracts 1. -/
theorem C48_violation_succ (g : Cfg) :
    (∃ c, expression g 20 .boolean
        (start [Fn.succ.tk, .lparen, falseTk, .rparen, .eq, trueTk, .semi]) =
      some (.boolean, { start [.semi] with out := c }) ∧
      pushes c exState = some (Val.bool false).word) ∧
    (∃ c, expression g 20 .boolean
        (start [Fn.pred.tk, .lparen, trueTk, .rparen, .eq, falseTk, .semi]) =
      some (.boolean, { start [.semi] with out := c }) ∧
      pushes c exState = some (Val.bool false).word) :=
  ⟨⟨[ins .push 0 0, ins .inc 0 0, ins .push 0 (-1), ins .equ 0 0], rfl, by decide +kernel⟩,
    ⟨[ins .push 0 (-1), ins .dec 0 0, ins .push 0 0, ins .equ 0 0], rfl, by decide +kernel⟩⟩

/-- Violation of C48: the absolute value of a short integer, which is an integer type, is refused. -/
theorem C48_violation_abs (g : Cfg) :
    ∃ c, expression g 20 .unknown (start [Fn.abs.tk, .lparen, xB.tk, .rparen, .semi]) =
      some (.shortInteger, { start [.semi] with
        out := c
        errs := 1 }) :=
  ⟨[ins .ldb 0 2], rfl⟩

/-- A variable of type LongInteger at level 0. -/
def longVar : Tk := .var ⟨.longInt, 0, 20⟩

/-- Violation of C48: the product of an integer and a long integer is accepted as an integer, but the
code leaves two words on the stack. -/
theorem C48_violation_mixed_product (g : Cfg) (hg : g.level = 1) :
    ∃ c, expression g 10 .integer (start [xA.tk, .mul, longVar, .semi]) =
      some (.integer, { start [.semi] with out := c }) ∧ grows c exState = some 2 := by
  refine ⟨[ins .ld 0 0, ins .push 0 4, ins .ldm 0 20, ins .mul 0 0], ?_, by decide +kernel⟩
  obtain ⟨l, f⟩ := g
  cases hg
  rfl

/-- Violation of C48: an integer constant from 32768 to 65535 is accepted as a value of type Integer
but what is pushed is the representation of a negative integer. -/
theorem C48_violation_constant (g : Cfg) (n : Nat) (h : 32768 ≤ n ∧ n ≤ 65535) :
    ∃ (c : OpType) (i : Int), expression g 10 .integer (start [.int (BitVec.ofNat 32 n), .semi]) =
      some (.integer, { start [.semi] with out := [c] }) ∧
      c = ⟨Op.push.toByte, 0, (Val.num .integer i).word⟩ ∧ i = (n : Int) - 65536 ∧ i < 0 ∧
      (Val.num .integer i).word.toInt ≠ n := by
  refine ⟨ins .push 0 n, (n : Int) - 65536, ?_, ?_, rfl, by omega, ?_⟩
  · have hn : (BitVec.ofNat 32 n).toNat = n := by simp; omega
    have e : intFactor .integer (BitVec.ofNat 32 n) (start [.int (BitVec.ofNat 32 n), .semi]) =
        (.integer, { start [.int (BitVec.ofNat 32 n), .semi] with out := [ins .push 0 n] }) := by
      unfold intFactor
      rw [if_neg (by decide), hn, if_pos (by omega)]
      have := genData_after (o := .push) (b := n) (by omega) (start [.int (BitVec.ofNat 32 n), .semi])
        [.int (BitVec.ofNat 32 n), .semi] []
      simp only [after] at this
      rw [if_neg (by simp), if_neg (by simp)]
      exact congrArg _ this
    have f : factor g 7 .integer (start [.int (BitVec.ofNat 32 n), .semi]) =
        some (.integer, { start [.semi] with out := [ins .push 0 n] }) := by
      rw [factor_succ]
      show some ((intFactor .integer (BitVec.ofNat 32 n) (start [.int (BitVec.ofNat 32 n), .semi])).1,
        (intFactor .integer (BitVec.ofNat 32 n) (start [.int (BitVec.ofNat 32 n), .semi])).2.next) = _
      rw [e]
      rfl
    have t : term g 8 .integer (start [.int (BitVec.ofNat 32 n), .semi]) =
        some (.integer, { start [.semi] with out := [ins .push 0 n] }) := by
      rw [term, f]; rfl
    have u : simple g 9 .integer (start [.int (BitVec.ofNat 32 n), .semi]) =
        some (.integer, { start [.semi] with out := [ins .push 0 n] }) := by
      rw [simple]
      show (do let (t, s) ← term g 8 .integer (start [.int (BitVec.ofNat 32 n), .semi]); _) = _
      rw [t]; rfl
    rw [expression, u]
    rfl
  · show ins .push 0 n = _
    simp only [ins, Val.word]
    congr 1
    apply BitVec.eq_of_toNat_eq
    simp only [BitVec.toNat_ofInt]
    show (if hasArg16 Op.push.toByte = true then BitVec.ofInt 16 (n : Int) else 0).toNat = _
    rw [if_pos (by decide), BitVec.toNat_ofInt]
    omega
  · simp only [Val.word]
    rw [BitVec.toInt_ofInt, Int.bmod_eq_of_le (by omega) (by omega)]
    omega

example : (Val.num .integer (-25536)).word = 40000#16 := by decide

end Pas.Src
