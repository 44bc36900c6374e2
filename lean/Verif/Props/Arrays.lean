import Verif.Props.Statements

/-! Property C73: elements of arrays. -/
namespace Pas.Src
open Pas.Spec Pas.Comp

/-! ### Places -/

/-- C73: the elements of an array are in a row, without overlap, from the place of the array on, and all of
them in the bytes that the array has. -/
theorem C73_places (a : Arr) (j k : Nat) (hj : a.lo ≤ j ∧ j ≤ a.hi) (hk : a.lo ≤ k ∧ k ≤ a.hi) :
    (a.off : Int) ≤ (a.elem j).off ∧
    (a.elem j).off + a.ty.size ≤ a.off + (a.hi - a.lo + 1 : Nat) * a.ty.size ∧
    (j < k → (a.elem j).off + a.ty.size ≤ (a.elem k).off) ∧
    (a.elem j = a.elem k → j = k) := by
  have hs : a.ty.size = 1 ∨ a.ty.size = 2 := byteSize_cases a.ty
  simp only [Arr.elem, Variable.mk.injEq, true_and]
  rcases hs with h | h <;> rw [h] <;> refine ⟨?_, ?_, ?_, ?_⟩ <;> omega

example : (⟨.num .integer, 0, 4, 2, 5⟩ : Arr).lo ≤ 5 ∧
    ((⟨.num .integer, 0, 4, 2, 5⟩ : Arr).elem 5) = ⟨.num .integer, 0, 10⟩ := by decide

/-! ### Reading and assigning -/

/-- C73 (partial: arrays with one index from a range of integers, the lower bound not negative, and elements
of the 16-bit ordinal types; the index is in the range, otherwise see the violations below): the value of
`a[i]` is what the variable for the element holds whose number is the value of `i`.  Wherever the generated
code is in a program, running it pushes this value and changes nothing else. -/
theorem C73_read_partial (g : Cfg) (lib : Lib) (Γ : Env) (hΓ : Γ.Ok) (hg : g.level = Γ.level)
    (a : Arr) (i : E .expr) (rest : List Tk) (cs : CS) (bounds : a.Ok) (declared : ∀ x ∈ a.elems, Γ.vars x)
    (index : i.Ok Γ.vars (.a (.num .integer)) (.num .integer))
    (toks : cs.toks = a.tk :: .lbracket :: (i.toks ++ .rbracket :: rest)) (ends : Ends rest) :
    ∃ (N : Nat) (c : List OpType),
      (∀ n, N ≤ n → expression g n a.ty.et cs = some (a.ty.et, { cs with
        toks := rest
        out := cs.out ++ c })) ∧
      ∀ (σ : Store) (j : Nat) (v : Val) (s : VM) (b : Nat) (addr : Nat → Word) (p : List OpType) (k : Nat),
        i.eval σ (.a (.num .integer)) = some (.num .integer j) → a.lo ≤ j → j ≤ a.hi →
        σ (a.elem j) = some v → v.ty = a.ty → Γ.In s b → Γ.Holds s.mem σ → b ≤ s.sp.toNat / 2 →
        RoomFor s (i.toks.length + 3) → At p k c →
        ∃ t, PSteps lib addr p (k, s) (k + c.length, t) ∧
          Pushed s (i.toks.length + 3) v.word t ∧ Γ.Holds t.mem σ := by
  have ht : (E.simple (.term none (.factor (.index a i)))).typeOf (.a a.ty) = some a.ty := by
    simp [E.typeOf, bounds, index.2]
  have hl : (E.simple (.term none (.factor (.index a i)))).toks = a.tk :: .lbracket :: (i.toks ++ [.rbracket]) := rfl
  obtain ⟨N, c, h1, h2⟩ := C48_expression_partial g lib Γ hΓ hg
    (.simple (.term none (.factor (.index a i)))) (.a a.ty) a.ty rest cs ht
    (by
      intro v hv
      rcases List.mem_append.1 (show v ∈ a.elems ++ i.vars from hv) with h | h
      · exact declared v h
      · exact index.1 v h)
    (by rw [toks, hl]; simp) ends
  refine ⟨N, c, h1, ?_⟩
  intro σ j v s b addr p k hi hj1 hj2 hv hvt hin hh hb hroom hat
  have hn : (E.simple (.term none (.factor (.index a i)))).toks.length = i.toks.length + 3 := by
    rw [hl]; simp
  have := h2 σ v s b addr p k (by
    simp only [E.eval, hi, Option.bind_eq_bind, Option.bind_some, Arr.pick]
    rw [if_pos (by omega)]
    simpa using hv) hin hh hb (by rw [hn]; exact hroom) hat
  rw [hn] at this
  exact this.2

/-- C73 (partial: as above; the compiled statement is not in a loop and calls nothing): an assignment
`a[i] := e` is accepted without an error, and wherever its code is in a program without duplicate labels,
running it gives the element whose number is the value of `i` the value of `e`; all other elements and all
other variables keep their values, and so does everything else below the top of the stack. -/
theorem C73_assign_partial (g : Cfg) (lib : Lib) (Γ : Env) (hΓ : Γ.Ok) (hg : g.level = Γ.level)
    (a : Arr) (i e : E .expr) (rest : List Tk) (cs : CS) (bounds : a.Ok) (declared : ∀ x ∈ a.elems, Γ.vars x)
    (index : i.Ok Γ.vars (.a (.num .integer)) (.num .integer)) (value : e.Ok Γ.vars (.a a.ty) a.ty)
    (toks : cs.toks = a.tk :: .lbracket :: (i.toks ++ .rbracket :: .assign :: (e.toks ++ rest)))
    (follows : Follows rest)
    (labels : cs.label.toNat + cs.toks.length ≤ 65535)
    (depth : (S.assignAt a i e).need 0 ≤ 16384) (adj : cs.adj = 0) :
    ∃ (N : Nat) (c : List OpType) (L : Word) (r : List Byte),
      (∀ n, N ≤ n → statement g n cs = some { cs with
        toks := rest
        out := cs.out ++ c
        label := L
        ro := cs.ro ++ r }) ∧
      ∀ (σ : State) (j : Nat) (v : Val) (s : VM) (b : Nat) (ro : List Byte) (addr : Nat → Word)
        (p : List OpType) (k : Nat),
        i.eval σ.store (.a (.num .integer)) = some (.num .integer j) → a.lo ≤ j → j ≤ a.hi →
        e.eval σ.store (.a a.ty) = some v →
        Γ.In s b → Γ.Has lib ro s b σ →
        cs.ro ++ r <+: ro → s.sp.toNat % 2 = 0 → b ≤ s.sp.toNat / 2 → RoomFor s ((S.assignAt a i e).need 0) →
        At p k c → Uniq p →
        ∃ (t : VM) (τ : State), PSteps lib addr p (k, s) (k + c.length, t) ∧ t.sp = s.sp ∧
          Γ.Has lib ro t b τ ∧ Γ.Keeps σ.io s t ∧
          τ.store (a.elem j) = some v.trim ∧ τ.out = σ.out ∧
          (∀ m, a.lo ≤ m → m ≤ a.hi → m ≠ j → τ.store (a.elem m) = σ.store (a.elem m)) ∧
          (∀ x, x ∉ a.elems → τ.store x = σ.store x) := by
  have hl : (S.assignAt a i e).toks ++ rest =
      a.tk :: .lbracket :: (i.toks ++ .rbracket :: .assign :: (e.toks ++ rest)) := by simp [S.toks]
  obtain ⟨N, c, L, r, h1, _, _, _, h2⟩ := C49_statement_partial g lib Γ hΓ hg (.assignAt a i e) rest cs
    ⟨bounds, declared, index, value⟩ (by rw [toks, hl]) follows (by intro h; cases h)
    (by rw [toks, ← hl, List.length_append] at labels; omega) depth adj
  refine ⟨N, c, L, r, h1, ?_⟩
  intro σ j v s b ro addr p k hi hj1 hj2 hv hin hh hro hev hb hroom hat hu
  have hp : a.pick (.num .integer j) = some j := by
    simp only [Arr.pick]
    rw [if_pos (by omega)]
    simp
  obtain ⟨_, t, q1, q2, q3, q4⟩ := h2 σ (σ.set (a.elem j) v.trim) .normal s b ro addr p k
    (.assignAt hi hp hv) hin hh hro hev hb hroom hat hu
  refine ⟨t, _, q1, q2, q3, q4, by simp [State.set, Store.set], rfl, ?_, ?_⟩
  · intro m hm1 hm2 hm
    show (if _ then _ else _) = _
    rw [if_neg (fun h => hm ((C73_places a m j ⟨hm1, hm2⟩ ⟨hj1, hj2⟩).2.2.2 h))]
  · intro x hx
    show (if _ then _ else _) = _
    rw [if_neg (fun h => hx (by rw [h]; exact Arr.elem_mem hj1 hj2))]

/-! ### A concrete case -/

/-- `array [2 .. 4] of integer` in the procedure, at the addresses from 50 on. -/
def yA : Arr := ⟨.num .integer, 1, 0, 2, 4⟩

/-- The array, and the variable `xA` of the program. -/
def arrEnv : Env where
  level := 1
  vars x := x ∈ xA :: yA.elems
  procs _ := False
  addr x := if x = xA then 16 else 50 + x.off.toNat

/-- The index 3 in `xA`, the values 0xffff, 0, 0 in the array. -/
def arrStore : Store := fun x => if x = xA then some (.num .integer 1000) else
  if x = yA.elem 2 then some (.num .integer (-1)) else some (.num .integer 0)

theorem arrEnv_ok : arrEnv.Ok where
  level := by decide
  outer := by intro x hx; revert x; simp only [arrEnv]; decide
  offset0 := by intro x hx; revert x; simp only [arrEnv]; decide
  offset := by intro x hx; revert x; simp only [arrEnv]; decide
  aligned := by intro x hx; revert x; simp only [arrEnv]; decide
  disjoint := by
    intro x y a hx hy h1 h2
    have key : ∀ x ∈ xA :: yA.elems, ∀ y ∈ xA :: yA.elems, x ≠ y →
        arrEnv.addr x + x.ty.size ≤ arrEnv.addr y ∨ arrEnv.addr y + y.ty.size ≤ arrEnv.addr x := by
      decide
    by_cases h : x = y
    · exact h
    · have := key x hx y hy h
      unfold Env.Owns at h1 h2
      omega
  procs := by intro q hq; exact hq.elim

theorem arrEnv_in : arrEnv.In exState 29 where
  inside := by intro x hx; revert x; simp only [arrEnv]; decide
  bound := by decide
  global := by
    intro x hx h0
    revert x; simp only [arrEnv]; decide
  frame := by
    intro x hx h0
    refine ⟨40#16, ?_, ?_⟩
    · have : arrEnv.level - x.level = 0 := by revert x; simp only [arrEnv]; decide
      rw [this]; exact .here _
    · revert x; simp only [arrEnv]; decide
  levels := by
    have apart : ∀ j ∈ [7, 20, 24], arrEnv.Apart 29 j := by
      intro j hj
      refine ⟨by revert j; decide, fun y a hy ho => ?_⟩
      have key : ∀ y ∈ xA :: yA.elems, 16 ≤ arrEnv.addr y ∧ y.ty.size = 2 ∧
          (arrEnv.addr y ≤ 16 ∨ 50 ≤ arrEnv.addr y) := by decide
      obtain ⟨k1, k2, k3⟩ := key y hy
      unfold Env.Owns at ho
      simp only [List.mem_cons, List.not_mem_nil, or_false] at hj
      omega
    intro j hj
    have hj : j ≤ 1 := hj
    rcases Nat.le_one_iff_eq_zero_or_eq_one.1 hj with rfl | rfl
    · exact ⟨_, .here _, apart 24 (by decide), by decide⟩
    · exact ⟨6#16, .out (by decide) (apart 20 (by decide)) (.here _), apart 7 (by decide), by decide⟩
  lsp := by decide

theorem arrEnv_holds : arrEnv.Holds exState.mem arrStore := by
  intro x v hx hv
  have hx : x = xA ∨ x = yA.elem 2 ∨ x = yA.elem 3 ∨ x = yA.elem 4 := by
    have : x ∈ [xA, yA.elem 2, yA.elem 3, yA.elem 4] := hx
    simpa using this
  rcases hx with rfl | rfl | rfl | rfl <;> cases hv <;> exact ⟨⟨rfl, by decide⟩, by decide, by decide⟩

/-- `yA[xA - 997] := yA[2] + 5` -/
def exElem : S .stmt := .assignAt yA
  (.simple (.add (.term none (.factor (.var xA))) .sub (.factor (.int 997))))
  (.simple (.add (.term none (.factor (.index yA (eN 2)))) .add (.factor (.int 5))))

/-- The hypotheses of `C73_assign_partial` are met: the element 3 gets the value 4. -/
example : exElem.Ok arrEnv.vars (fun _ => False) false false ∧ arrEnv.Ok ∧ arrEnv.In exState 29 ∧
    arrEnv.Has idleLib [] exState 29 ⟨arrStore, none, none⟩ ∧ RoomFor exState (exElem.need 0) ∧
    (E.simple (.add (.term none (.factor (.var xA))) .sub (.factor (.int 997)))).eval arrStore
      (.a (.num .integer)) = some (.num .integer 3) ∧
    (E.simple (.add (.term none (.factor (.index yA (eN 2)))) .add (.factor (.int 5)))).eval arrStore
      (.a (.num .integer)) = some (.num .integer 4) := by
  refine ⟨⟨by decide, ?_, ⟨?_, by decide⟩, ⟨?_, by decide⟩⟩, arrEnv_ok, arrEnv_in,
    ⟨arrEnv_holds, (fun _ h => by cases h), fun _ h => by cases h⟩, ⟨by decide, by decide⟩, by decide, by decide⟩
  · intro y hy; exact List.mem_cons_of_mem _ hy
  · intro y hy; revert y; simp only [arrEnv]; decide
  · intro y hy; revert y; simp only [arrEnv]; decide

/-- The hypotheses of `C73_read_partial` are met by `yA[2]`. -/
example : (eN 2).Ok arrEnv.vars (.a (.num .integer)) (.num .integer) ∧ yA.Ok ∧ Ends [.semi] ∧
    (eN 2).eval arrStore (.a (.num .integer)) = some (.num .integer (2 : Nat)) ∧
    arrStore (yA.elem 2) = some (.num .integer (-1)) ∧ RoomFor exState ((eN 2).toks.length + 3) :=
  ⟨⟨(by intro y hy; cases hy), by decide⟩, by decide, (by intro t h; cases h; decide), by decide, by decide,
    ⟨by decide, by decide⟩⟩

/-- Running it (words 25, 26 and 27 are the elements 2, 3 and 4). -/
example : endsWith exElem 100 [25, 26, 27] = some [0xffff#16, 4#16, 0#16] := by decide +kernel

/-! ### Violations -/

/-- `yA[5] := 7` and `yA[1] := 7`: indices outside the range. -/
def beyond (n : Nat) : S .stmt := .assignAt yA (eN n) (eN 7)

/-- Violation of C73: an index outside of the range is not noticed, neither by the compiler (here it is a
constant) nor at run time.  The statements have no meaning; running them changes the word behind the array,
and the word before it, where the level of the procedure is kept. -/
theorem C73_violation_bounds :
    (∀ n σ o τ, n = 1 ∨ n = 5 → ¬ Exec noCalls (.stmt (beyond n)) σ o τ) ∧
    exState.mem 28 = 0#16 ∧ endsWith (beyond 5) 100 [25, 26, 27, 28] = some [0xffff#16, 0#16, 0#16, 7#16] ∧
    exState.mem 24 = 1#16 ∧ endsWith (beyond 1) 100 [24] = some [7#16] := by
  refine ⟨?_, by decide, by decide +kernel, by decide, by decide +kernel⟩
  intro n σ o τ hn h
  cases h with
  | assignAt h1 h2 h3 =>
    rcases hn with rfl | rfl <;> cases h1 <;> cases h2

/-- A variable `array [1 .. 2, 1 .. 3] of integer` at level 0: the step of the first index is two bytes, that
of the second four. -/
def yM : Tk := .arr ⟨.int, 0, 8, [(1, 2), (1, 4)]⟩

/-- Violation of C73: for an array with two indices one index is enough for the compiler: `yM[2]` is
accepted as an integer, and means `yM[2, 1]`. -/
theorem C73_violation_dimensions (g : Cfg) :
    (∃ c, expression g 20 .integer (start [yM, .lbracket, .int 2#32, .rbracket, .semi]) =
      some (.integer, { start [.semi] with out := c }) ∧ pushes c exState = some (exState.mem 13)) ∧
    (∃ c, expression g 20 .integer (start [yM, .lbracket, .int 2#32, .comma, .int 1#32, .rbracket, .semi]) =
      some (.integer, { start [.semi] with out := c }) ∧ pushes c exState = some (exState.mem 13)) :=
  ⟨⟨[ins .push 0 2, ins .push 0 1, ins .sub 0 0, ins .push 0 2, ins .mul 0 0, ins .ldx 0 8], rfl, by decide +kernel⟩,
    ⟨[ins .push 0 2, ins .push 0 1, ins .sub 0 0, ins .push 0 2, ins .mul 0 0,
      ins .push 0 1, ins .push 0 1, ins .sub 0 0, ins .push 0 4, ins .mul 0 0, ins .add 0 0, ins .ldx 0 8], rfl,
      by decide +kernel⟩⟩

end Pas.Src
