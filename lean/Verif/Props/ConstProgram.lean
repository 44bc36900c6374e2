import Verif.Props.ArrayProgram
import Verif.Props.Constants

/-! Constants in whole programs: a case of C52, C57, C70, C71 and C73, and where C72 goes wrong with them. -/
namespace Pas.Src
open Pas.Spec Pas.Comp Pas.Link

/-- `a : array [1..n] of integer` with `n = 10`. -/
def cA : Arr := ⟨.num .integer, 0, 4, 1, 10⟩

/-- `a[m] := n; a[1] := a[7] + 1; write(a[1], ch)` with `n = 10`, `m = 7` and `ch = 'x'`. -/
def cstBody : S .list :=
  .cons (.assignAt cA (eN 7) (eN 10))
  (.cons (.assignAt cA (eN 1) (.simple (.add (.term none (.factor (.index cA (eN 7)))) .add (.factor (.int 1)))))
  (.one (.write false false (.val (.simple (.term none (.factor (.index cA (eN 1))))) none)
    [.val (.simple (.term none (.factor (.char 120)))) none])))

/-- `program c (output); const n = 2 * 5; m = N - 3; ch = 'x'; var a : array [1..n] of integer; begin
a[m] := n; a[1] := a[7] + 1; write(a[1], ch) end.` -/
def cstProgram : Source where
  name := [99]
  files := [outputName]
  consts := [⟨[110], [.tk (.int 2), .tk .mul, .tk (.int 5)], .term none (.mul (.factor (.int 2)) .mul (.int 5)), .num .integer 10⟩,
    ⟨[109], [.name [78], .tk .minus, .tk (.int 3)], .add (.term none (.factor (.int 10))) .sub (.factor (.int 3)), .num .integer 7⟩,
    ⟨[99, 104], [.tk (.char 120)], .term none (.factor (.char 120)), .char 120⟩]
  groups := [⟨[97], [], integerName, .num .integer, some (1, 10), some (.tk (.int 1), .name [110])⟩]
  body := [.name [97], .tk .lbracket, .name [109], .tk .rbracket, .tk .assign, .name [110], .tk .semi,
    .name [97], .tk .lbracket, .tk (.int 1), .tk .rbracket, .tk .assign,
    .name [97], .tk .lbracket, .tk (.int 7), .tk .rbracket, .tk .plus, .tk (.int 1), .tk .semi,
    .tk .write_, .tk .lparen, .name [97], .tk .lbracket, .tk (.int 1), .tk .rbracket, .tk .comma, .name [99, 104], .tk .rparen]

theorem cst_consts : CstsRight [] cstProgram.consts := by
  refine ⟨⟨?_, by decide, trivial, trivial⟩, ⟨?_, by decide, trivial, trivial, by decide⟩, ⟨?_, by decide, trivial⟩, trivial⟩
  all_goals
    repeat' apply pointwise_cons
    all_goals first
      | exact pointwise_nil
      | exact .other (by simp) (by simp) (by simp) (by simp) (by simp)
      | exact .const (v := .num .integer 10) (means_of_mem (by decide) (n := [110]) (by decide) (by decide))

theorem cst_bounds {sc : Scope} (h : Means sc [110] (.const (.num .integer 10))) :
    ∀ g ∈ cstProgram.groups, g.Bounds sc := by
  intro g hg r hr b hb
  rcases List.mem_singleton.1 hg with rfl
  cases hr; cases hb
  exact ⟨.other (by simp) (by simp) (by simp) (by simp) (by simp), .const h⟩

theorem cst_ok : cstProgram.Ok cstBody := by
  let sc : Scope := [] ++ ([] ++ locals 0 cstProgram.consts cstProgram.groups ++ Dcl.heads 0 1 .nil)
  have hd : sc.Pairwise fun a b => ¬ SameName a.1 b.1 := by decide
  have ha : ∀ y ∈ cA.elems, Scope.vars sc y := by
    have : ∀ y ∈ cA.elems, ∃ e ∈ sc, y ∈ e.2.vars := by decide
    exact this
  refine ⟨?_, by decide, ⟨?_, hd, cst_consts, by simp, by decide, cst_bounds ?_, by decide, ?_, ?_⟩, trivial⟩
  · exact ⟨by unfold Plain; decide +kernel, by decide +kernel⟩
  · unfold New Plain; decide +kernel
  · exact means_of_mem (by decide) (n := [110]) (by decide) (by decide)
  · repeat' apply pointwise_cons
    all_goals first
      | exact pointwise_nil
      | exact .other (by simp) (by simp) (by simp) (by simp) (by simp)
      | exact .arr (means_of_mem hd (n := [97]) (by decide) (by decide))
      | exact .const (v := .num .integer 10) (means_of_mem hd (n := [110]) (by decide) (by decide))
      | exact .const (v := .num .integer 7) (means_of_mem hd (n := [109]) (by decide) (by decide))
      | exact .const (v := .char 120) (means_of_mem hd (n := [99, 104]) (by decide) (by decide))
  · have sub : ∀ {l : List Variable}, (∀ y ∈ l, y ∈ cA.elems) → ∀ y ∈ l, Scope.vars sc y :=
      fun h y hy => ha y (h y hy)
    refine ⟨⟨by decide, sub (by decide), ⟨sub (by decide), by decide⟩, ⟨sub (by decide), by decide⟩⟩,
      ⟨by decide, sub (by decide), ⟨sub (by decide), by decide⟩, ⟨sub (by decide), by decide⟩⟩, ?_⟩
    intro j hj
    rcases List.mem_cons.1 hj with rfl | hj
    · exact ⟨⟨.num .integer, ⟨sub (by decide), by decide⟩, by decide⟩, fun u hu => by cases hu⟩
    · rcases List.mem_singleton.1 hj with rfl
      exact ⟨⟨.char, ⟨sub (by decide), by decide⟩, by decide⟩, fun u hu => by cases hu⟩

/-- The hypotheses of `C52_program_partial` and `C57_variables_partial` are met by a program with constants. -/
example : cstProgram.Ok cstBody ∧ cstProgram.size ≤ 32768 ∧ cstProgram.procs.toks.length + cstBody.toks.length ≤ 65534 ∧
    cstBody.need 0 ≤ 16384 ∧
    (∀ n ∈ cstProgram.consts.map Cst.name ++ cstProgram.groups.flatMap Group.names, New n) ∧
    ((cstProgram.consts.map Cst.name ++ cstProgram.groups.flatMap Group.names).Pairwise fun n m => ¬ SameName n m) ∧
    CstsRight [] cstProgram.consts ∧
    (∀ g ∈ cstProgram.groups, g.Bounds (locals 0 cstProgram.consts cstProgram.groups)) ∧
    ∀ g ∈ cstProgram.groups, g.Right :=
  ⟨cst_ok, by decide, by decide, by decide, by unfold New Plain; decide +kernel, by decide, cst_consts,
    cst_bounds (means_of_mem (by decide) (n := [110]) (by decide) (by decide)), by decide⟩

/-- The example, executed: `11x`. -/
example : buildAndWrite cstProgram.toks 200 = some [49, 49, 120] := by decide +kernel

/-- `const n = 2`, as it is written. -/
example : Written [99, 111, 110, 115, 116, 32, 110, 61, 50, 10] [.tk (.other 0x84), .name [110], .tk .eq, .tk (.int 2)] :=
  .cons (l := []) (w := [99, 111, 110, 115, 116]) .nil (.word (k := [67, 79, 78, 83, 84]) (by simp [words]) (by decide))
    (by simp [IdentChar, Letter, Digit]) (by decide)
    (.cons (l := [32]) (w := [110]) (.blank _ (by simp [Blank]) .nil)
      (.name ⟨by simp [IdentChar, Letter, Digit], _, _, rfl, by simp [Digit]⟩ (by unfold Plain; decide +kernel) (by decide +kernel))
      (by simp [IdentChar, Letter, Digit]) (by decide)
    (.cons (l := []) (w := [61]) (stop := fun c => c ∉ ([] : List Byte)) .nil (.symbol (by decide)) (by decide) (by decide)
    (.last (l := []) (w := [50]) .nil (.number (by decide) (by simp [Digit]) (by decide))
      (by simp [IdentChar, Letter, Digit]) (by decide))))

/-! ### Violations -/

/-- `x = 1;`, `y = 2;` -/
def constX : List Lx := [.name [120], .tk .eq, .tk (.int 1), .tk .semi]
@[inherit_doc constX] def constY : List Lx := [.name [121], .tk .eq, .tk (.int 2), .tk .semi]

/-- Violation of C72: a local constant cannot always have the name of a variable around the procedure.
With `var x : integer` in the program, a procedure may begin with `const x = 1; y = 2;`, but with
`const y = 2; x = 1;` the definitions end before `x`, and the compiler reports that BEGIN is missing. -/
theorem C72_violation_hide_constant :
    errorsIn (withDecls ([.var_] ++ declX ++ procQ (.tk .semi :: .tk (.other 0x84) :: (constX ++ constY))) []) = some 0 ∧
    errorsIn (withDecls (procQ (.tk .semi :: .tk (.other 0x84) :: (constY ++ constX))) []) = some 0 ∧
    errorsIn (withDecls ([.var_] ++ declX ++ procQ (.tk .semi :: .tk (.other 0x84) :: (constY ++ constX))) []) ≠ some 0 := by
  decide +kernel

end Pas.Src
