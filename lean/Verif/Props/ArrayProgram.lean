import Verif.Props.Procedures
import Verif.Props.Arrays

/-! Property C73: arrays in whole programs. -/
namespace Pas.Src
open Pas.Spec Pas.Comp Pas.Link

/-! ### A program with an array (a case of C52, C57 and C71) -/

/-- `t : array [2..4] of integer` and `k : integer`, the variables of the example. -/
def aT : Arr := ⟨.num .integer, 0, 4, 2, 4⟩
@[inherit_doc aT] def aK : Variable := ⟨.num .integer, 0, 10⟩

/-- `k` -/
def eK : E .expr := .simple (.term none (.factor (.var aK)))

/-- `k := 2; while k <= 4 do begin t[k] := k * k; k := k + 1 end; k := t[3] + t[4]` -/
def arrBody : S .list :=
  .cons (.assign aK (eN 2))
  (.cons (.while_ (.rel (.term none (.factor (.var aK))) .le (.term none (.factor (.int 4))))
    (.block (.cons (.assignAt aT eK (.simple (.term none (.mul (.factor (.var aK)) .mul (.var aK)))))
      (.one (.assign aK (.simple (.add (.term none (.factor (.var aK))) .add (.factor (.int 1)))))))))
  (.one (.assign aK (.simple (.add (.term none (.factor (.index aT (eN 3)))) .add (.factor (.index aT (eN 4))))))))

/-- `program a; var t : array [2..4] of integer; k : integer; begin k := 2; while k <= 4 do begin
T[k] := k * k; k := k + 1 end; k := t[3] + t[4] end.` -/
def arrProgram : Source where
  name := [97]
  files := []
  groups := [⟨[116], [], integerName, .num .integer, some (2, 4), none⟩, ⟨[107], [], integerName, .num .integer, none, none⟩]
  body := [.name [107], .tk .assign, .tk (.int 2), .tk .semi,
    .tk .while_, .name [107], .tk .le, .tk (.int 4), .tk .do_, .tk .begin_,
    .name [84], .tk .lbracket, .name [107], .tk .rbracket, .tk .assign, .name [107], .tk .mul, .name [107], .tk .semi,
    .name [107], .tk .assign, .name [107], .tk .plus, .tk (.int 1), .tk .end_, .tk .semi,
    .name [107], .tk .assign, .name [116], .tk .lbracket, .tk (.int 3), .tk .rbracket, .tk .plus,
    .name [116], .tk .lbracket, .tk (.int 4), .tk .rbracket]

theorem arr_ok : arrProgram.Ok arrBody := by
  let sc : Scope := [] ++ ([] ++ locals 0 arrProgram.consts arrProgram.groups ++ Dcl.heads 0 1 .nil)
  have hd : sc.Pairwise fun a b => ¬ SameName a.1 b.1 := by decide
  have ha : ∀ y ∈ aK :: aT.elems, Scope.vars sc y := by
    have : ∀ y ∈ aK :: aT.elems, ∃ e ∈ sc, y ∈ e.2.vars := by decide
    exact this
  have k : Scope.vars sc aK := ha _ (by decide)
  refine ⟨?_, by decide, ⟨?_, hd, trivial, by decide, by decide, no_bounds (by decide), by decide, ?_, ?_⟩, trivial⟩
  · exact ⟨by unfold Plain; decide +kernel, by decide +kernel⟩
  · unfold New Plain; decide +kernel
  · repeat' apply pointwise_cons
    all_goals first
      | exact pointwise_nil
      | exact .other (by simp) (by simp) (by simp) (by simp) (by simp)
      | exact .var (means_of_mem hd (n := [107]) (by decide) (by decide))
      | exact .arr (means_of_mem hd (n := [116]) (by decide) (by decide))
  · have sub : ∀ {l : List Variable}, (∀ y ∈ l, y ∈ aK :: aT.elems) → ∀ y ∈ l, Scope.vars sc y :=
      fun h y hy => ha y (h y hy)
    exact ⟨⟨k, sub (by decide), by decide⟩,
      ⟨⟨sub (by decide), by decide⟩, ⟨by decide, sub (by decide), ⟨sub (by decide), by decide⟩, ⟨sub (by decide), by decide⟩⟩,
        k, sub (by decide), by decide⟩, k, sub (by decide), by decide⟩

/-- The hypotheses of `C52_program_partial` and `C57_variables_partial` are met by a program with an array; its
meaning ends with `t` containing 4, 9 and 16, and `k` being 25. -/
example : arrProgram.Ok arrBody ∧ arrProgram.size ≤ 32768 ∧ arrProgram.procs.toks.length + arrBody.toks.length ≤ 65534 ∧
    arrBody.need 0 ≤ 16384 ∧
    (∀ σ, ∃ τ, Exec (arrProgram.calls 0) (.list arrBody) σ .normal τ ∧
      [2, 3, 4].map (fun j => τ.store (aT.elem j)) =
        [some (.num .integer 4), some (.num .integer 9), some (.num .integer 16)] ∧
      τ.store aK = some (.num .integer 25)) ∧
    (∀ g ∈ arrProgram.groups, ∀ n ∈ g.names, New n) ∧ ∀ g ∈ arrProgram.groups, g.Right := by
  refine ⟨arr_ok, by decide, by decide, by decide, fun σ => ?_, ?_, by decide⟩
  · refine ⟨_, .cons (.assign (v := .num .integer 2) rfl) (.cons
      (.whileNext (o := .normal) rfl (.block (.cons (.assignAt (w := .num .integer 2) (k := 2) (v := .num .integer 4) rfl rfl rfl)
        (.one (.assign (v := .num .integer 3) rfl)))) (by decide)
      (.whileNext (o := .normal) rfl (.block (.cons (.assignAt (w := .num .integer 3) (k := 3) (v := .num .integer 9) rfl rfl rfl)
        (.one (.assign (v := .num .integer 4) rfl)))) (by decide)
      (.whileNext (o := .normal) rfl (.block (.cons (.assignAt (w := .num .integer 4) (k := 4) (v := .num .integer 16) rfl rfl rfl)
        (.one (.assign (v := .num .integer 5) rfl)))) (by decide)
      (.whileEnd rfl)))) (.one (.assign (v := .num .integer 25) rfl))), rfl, rfl⟩
  · unfold New Plain; decide +kernel

/-- The example, executed: the elements of `t`, and `k`. -/
example : buildAndRun arrProgram.toks 300 [2, 3, 4, 5] = some [4#16, 9#16, 16#16, 25#16] := by decide +kernel

/-- `[2..4]`, as it is written. -/
example : Written [91, 50, 46, 46, 52, 93, 10] [.tk .lbracket, .tk (.int 2), .tk (.other 0x0b), .tk (.int 4), .tk .rbracket] :=
  .cons (l := []) (w := [91]) (stop := fun c => c ∉ ([] : List Byte)) .nil (.symbol (by decide)) (by decide) (by decide)
    (.range (l := []) (ds := [50]) .nil (by decide) (by simp [Digit]) (by decide) (by decide)
    (.cons (l := []) (w := [46, 46]) (stop := fun c => c ∉ ([] : List Byte)) .nil (.symbol (by decide)) (by decide) (by decide)
    (.cons (l := []) (w := [52]) .nil (.number (by decide) (by simp [Digit]) (by decide))
      (by simp [IdentChar, Letter, Digit]) (by decide)
    (.last (l := []) (w := [93]) (stop := fun c => c ∉ ([] : List Byte)) .nil (.symbol (by decide)) (by decide) (by decide)))))

/-! ### Violation -/

/-- Violation of C73 (and C57): `var a : array [0..65535] of char; b : integer;` -- the number of elements is
computed with 16 bits, so that the array gets no bytes at all: it has the same place as the variable declared
after it, and there is no error. -/
theorem C73_violation_size :
    (match declarations 20 [.name [112], .tk .semi, .var_, .name [97], .tk .colon, .tk (.other 0x81), .tk .lbracket,
        .tk (.int 0), .tk (.other 0x0b), .tk (.int 65535), .tk .rbracket, .tk .of_, .name charName, .tk .semi,
        .name [98], .tk .colon, .name integerName, .tk .semi, .tk .begin_, .tk .end_, .tk .period] with
      | .ok (some d) => some (d.errs, d.dstack, (Lx.name [97]).tok d.tab 0, (Lx.name [98]).tok d.tab 0)
      | _ => none) = some (0, 6, .arr ⟨.char, 0, 4, [(0, 1)]⟩, .var ⟨.int, 0, 4⟩) := by decide +kernel

end Pas.Src
