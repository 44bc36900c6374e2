import Verif.Lemmas.AcceptProg
import Verif.Lemmas.AcceptNames
import Verif.Props.Accept
import Verif.Props.Procedures

/-! Property C82 for whole programs: a program in which the compiler finds no error is a program. -/
namespace Pas.Accept
open Pas.Comp
open Pas.Src (withDecls procQ declX integerName errorsIn trueName)

/-- C82 (partial: the rules of `checked`, not all of `pascal`; the part of the language that is modelled):
whatever the tokens are, if the compiler finds no error in them, they begin with a program.  Names are declared before they are used, and as the declarations say; no name is
declared twice in a scope by different declarations; types are types; a constant is given by an expression and has its
value; the bounds of arrays are in order; parameters
are known in their procedure and procedures behind their heading; and the statements of every block are statements
in the sense of `Spec/Accept.lean` with the declared names.  At the end of the text the compiler sees periods. -/
theorem C82_program_partial (line : Nat → Byte × Word) (pad : Byte) (n : Nat) (toks : List Lx) (o : Object)
    (accepted : program line pad n toks = .ok (some o)) (noErrors : o.errs = 0) :
    ∃ k ts rest, toks ++ List.replicate k (.tk .period) = ts ++ rest ∧ Program ts :=
  program_accepted accepted noErrors

/-- C82 (and the other direction of C47): whatever follows in the text, if a constant is defined without an error and
without undefined behaviour, then its name is followed by an equal sign and a constant expression whose operands have
the right types, and the constant has the value of the expression. -/
theorem C82_constant (n : Nat) (s s' : Const.KS) (k : Const.KK) (v : BitVec 32)
    (accepted : Const.declareConst n s = some (some (k, v), s')) (noError : s'.errs = s.errs)
    (defined : s'.ub = false) :
    s.toks.tail.head? = some .eq ∧ ∃ ts, s.toks.tail.tail = ts ++ s'.toks ∧ ConstForm .simple ts k v := by
  obtain ⟨h1, ts, h2, h3⟩ := Const.declare_read accepted noError defined
  refine ⟨?_, ts, h2, h3⟩
  have h1 : s.toks.tail.headD .period = .eq := h1
  cases h : s.toks.tail with
  | nil => rw [h] at h1; cases h1
  | cons x l => rw [h] at h1; cases h1; rfl

/-- `c = abs(-7) mod 4 + 2 * 3` defines the constant 9. -/
example : ∃ s, Const.declareConst 20 ⟨[.ident, .eq, .other 0xc001, .lparen, .minus, .int 7#32, .rparen, .mod_,
      .int 4#32, .plus, .int 2#32, .mul, .int 3#32, .semi], 0, false, .none_, 0#32, [0, 0, 0, 0]⟩ =
      some (some (.int, 9#32), s) ∧ s.errs = 0 ∧ s.ub = false ∧ s.toks = [.semi] :=
  ⟨⟨[.semi], 0, false, .int, 9#32, [0, 0, 0, 0]⟩, by decide +kernel⟩

/-- C82 (partial, as above): in a program without errors every name in the statements has been declared before, by
the program or by the language. -/
theorem C82_declared_partial (line : Nat → Byte × Word) (pad : Byte) (n : Nat) (toks : List Lx) (o : Object)
    (accepted : program line pad n toks = .ok (some o)) (noErrors : o.errs = 0) :
    ∃ k xs ds ps bs rest env env',
      toks ++ List.replicate k (.tk .period) = xs ++ (ds ++ (ps ++ .tk .begin_ :: (bs ++ rest))) ∧
      Decls 0 primed.length primed ds env ∧ Procs 0 primed.length env ps env' ∧ ∀ x ∈ bs, x.tok env' 0 ≠ .ident := by
  obtain ⟨k, ts, rest, h, hp⟩ := program_accepted accepted noErrors
  have key : ∀ bs, Block 0 primed bs → ∃ ds ps cs env env', bs = ds ++ (ps ++ .tk .begin_ :: cs) ∧
      Decls 0 primed.length primed ds env ∧ Procs 0 primed.length env ps env' ∧ ∀ x ∈ cs, x.tok env' 0 ≠ .ident := by
    intro bs hb
    cases hb with
    | @mk _ _ env env' ds ps cs hd hps hs =>
      refine ⟨ds, ps, cs, env, env', rfl, hd, hps, fun x hx he => stm_named hs ?_⟩
      rw [← he]
      exact List.mem_cons_of_mem _ (List.mem_map_of_mem hx)
  cases hp with
  | @plain x bs hx hb =>
    obtain ⟨ds, ps, cs, env, env', rfl, h1, h2, h3⟩ := key _ hb
    exact ⟨k, [x, .tk .semi], ds, ps, cs, .tk .period :: rest, env, env', by rw [h]; simp, h1, h2, h3⟩
  | @files x fs bs hx hf hb =>
    obtain ⟨ds, ps, cs, env, env', rfl, h1, h2, h3⟩ := key _ hb
    exact ⟨k, x :: .tk .lparen :: (fs ++ [.tk .rparen, .tk .semi]), ds, ps, cs, .tk .period :: rest, env, env',
      by rw [h]; simp, h1, h2, h3⟩

/-- C82 (partial, as above): the same for the block of a procedure, with any declarations around it; behind the
block these are all the declarations there are. -/
theorem C82_procedure_block_partial (line : Nat → Byte × Word) (pad : Byte) (n lev : Nat) (d d' : DS) (s s' : CS)
    (accepted : block line pad n lev d s = .ok (some (d', s'))) (noErrors : d'.errs = d.errs ∧ s'.errs = s.errs)
    (outside : s.brk = 0 ∧ s.cont = 0) (table : Sane d.tab) (here : d.tok = d.last.tok d.tab 0) :
    d'.tab = d.tab ∧ ∃ k ts, d.last :: d.rest ++ List.replicate k (.tk .period) = ts ++ (d'.last :: d'.rest) ∧
      Block lev d.tab ts := by
  obtain ⟨h1, h2⟩ := (knownP line pad n).block lev d d' s s' accepted
  obtain ⟨-, -, xs, ⟨k, hk⟩, hb⟩ := h2.ok noErrors.1 noErrors.2 ⟨table, d.tab, 0, table, here⟩ outside
  exact ⟨h1, k, xs, hk, hb⟩

/-- C82: errors in the statements are never taken back by what follows in the program: an object without errors
comes from declarations and statements without errors. -/
theorem C82_procedure_errors_stay (line : Nat → Byte × Word) (pad : Byte) (n lev : Nat) (d d' : DS) (s s' : CS)
    (accepted : block line pad n lev d s = .ok (some (d', s'))) : d.errs ≤ d'.errs ∧ s.errs ≤ s'.errs := by
  obtain ⟨-, h2⟩ := (knownP line pad n).block lev d d' s s' accepted
  exact ⟨h2.led, h2.les⟩

/-- `boolean`. -/
def booleanName : List Byte := [98, 111, 111, 108, 101, 97, 110]

/-- `program p; const c = 2 + 3; var x, y : integer; a : array [1..c] of integer; procedure q (i, j : integer;
b : boolean); var k : integer; begin k := i + j; if b then a[index] := x end; begin x := c; q(x, second, third)
end.` -/
def sampleWith (index second third : Lx) : List Lx := withDecls
  ([.tk (.other 0x84), .name [99], .tk .eq, .tk (.int 2#32), .tk .plus, .tk (.int 3#32), .tk .semi,
    .var_, .name [120], .tk .comma, .name [121], .tk .colon, .name integerName, .tk .semi,
    .name [97], .tk .colon, .tk (.other 0x81), .tk .lbracket, .tk (.int 1#32), .tk (.other 0x0b), .name [99],
    .tk .rbracket, .tk .of_, .name integerName, .tk .semi,
    .tk (.other 0x9c), .name [113], .tk .lparen, .name [105], .tk .comma, .name [106], .tk .colon, .name integerName,
    .tk .semi, .name [98], .tk .colon, .name booleanName, .tk .rparen, .tk .semi,
    .var_, .name [107], .tk .colon, .name integerName, .tk .semi,
    .tk .begin_, .name [107], .tk .assign, .name [105], .tk .plus, .name [106], .tk .semi,
    .tk .if_, .name [98], .tk .then_, .name [97], .tk .lbracket, index, .tk .rbracket, .tk .assign, .name [120],
    .tk .end_, .tk .semi])
  [.name [120], .tk .assign, .name [99], .tk .semi,
    .name [113], .tk .lparen, .name [120], .tk .comma, second, .tk .comma, third, .tk .rparen]

/-- The hypotheses of `C82_program_partial` are met. -/
example : errorsIn (sampleWith (.name [107]) (.tk (.int 2#32)) (.name trueName)) = some 0 := by decide +kernel

/-- With an array index that is Boolean, with a Boolean value for the second parameter, with a name that is not
declared, or with the variable of the procedure behind it, there is an error. -/
example : errorsIn (sampleWith (.name [98]) (.tk (.int 2#32)) (.name trueName)) ≠ some 0 ∧
    errorsIn (sampleWith (.name [107]) (.name trueName) (.name trueName)) ≠ some 0 ∧
    errorsIn (sampleWith (.name [122]) (.tk (.int 2#32)) (.name trueName)) ≠ some 0 ∧
    errorsIn (sampleWith (.name [107]) (.name [107]) (.name trueName)) ≠ some 0 := by decide +kernel

/-! ### What the compiler does not check in declarations -/

/-- Violation of C82: a name can be declared twice in one list: `var x, x : integer;` is accepted. -/
theorem C82_violation_twice :
    errorsIn (withDecls [.var_, .name [120], .tk .comma, .name [120], .tk .colon, .name integerName, .tk .semi] []) =
      some 0 := by decide +kernel

/-- Violation of C82: the last semicolon of the declarations can be left out: `var x : integer begin end.` and
`const c = 1 begin end.` are accepted. -/
theorem C82_violation_semicolon :
    errorsIn (withDecls [.var_, .name [120], .tk .colon, .name integerName] []) = some 0 ∧
    errorsIn (withDecls [.tk (.other 0x84), .name [99], .tk .eq, .tk (.int 1#32)] []) = some 0 := by decide +kernel

/-- Violation of C82: nothing needs to be declared behind VAR and CONST: `const var begin end.` is accepted. -/
theorem C82_violation_empty :
    errorsIn (withDecls [.var_] []) = some 0 ∧ errorsIn (withDecls [.tk (.other 0x84)] []) = some 0 ∧
    errorsIn (withDecls [.tk (.other 0x84), .var_] []) = some 0 := by decide +kernel

/-- Violation of C82: a local variable can have the name of a parameter of the same procedure:
`procedure q (x : integer); var x : integer; begin end;` is accepted. -/
theorem C82_violation_parameter :
    errorsIn (withDecls (procQ ([.tk .lparen, .name [120], .tk .colon, .name integerName, .tk .rparen, .tk .semi] ++
      [.var_] ++ declX)) []) = some 0 := by decide +kernel

end Pas.Accept
