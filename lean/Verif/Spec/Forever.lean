import Verif.Spec.Calls
import Verif.Spec.PCode

/-! Programs that do not end (property C83): when a statement goes on forever. -/

namespace Pas.Spec

/-- The program can make at least `n` steps. -/
def Long (lib : Lib) (addr : Nat → Word) (p : List OpType) : Nat → Nat × VM → Prop
  | 0, _ => True
  | n + 1, c => ∃ c', PStep lib addr p c c' ∧ Long lib addr p n c'

end Pas.Spec

namespace Pas.Src

/-- The calls that do not end: `N q vs σ` means that the procedure `q`, called with the values `vs` in the
state `σ`, goes on forever. -/
abbrev Endless := Proc → List Val → State → Prop

/-- `GoesOn P N X c σ`: the execution of `c` in the state `σ` comes to something in `X`, or to a call in
`N` (for programs that do not end: a call that does not end).  What is executed before ends (`Exec`).  A statement that has no statements in it and is not a call
always ends. -/
inductive GoesOn (P : Effects) (N : Endless) (X : Cmd → State → Prop) : Cmd → State → Prop where
  | thenTrue {e s σ} : e.eval σ.store (.a .bool) = some (.bool true) → X (.stmt s) σ →
      GoesOn P N X (.stmt (.ifThen e s)) σ
  | elseTrue {e s t σ} : e.eval σ.store (.a .bool) = some (.bool true) → X (.stmt s) σ →
      GoesOn P N X (.stmt (.ifElse e s t)) σ
  | elseFalse {e s t σ} : e.eval σ.store (.a .bool) = some (.bool false) → X (.stmt t) σ →
      GoesOn P N X (.stmt (.ifElse e s t)) σ
  | whileBody {e s σ} : e.eval σ.store (.a .bool) = some (.bool true) → X (.stmt s) σ →
      GoesOn P N X (.stmt (.while_ e s)) σ
  | whileNext {e s σ o τ} : e.eval σ.store (.a .bool) = some (.bool true) →
      Exec P (.stmt s) σ o τ → o ≠ .break_ → X (.stmt (.while_ e s)) τ →
      GoesOn P N X (.stmt (.while_ e s)) σ
  | repeatBody {l e σ} : X (.list l) σ → GoesOn P N X (.stmt (.repeat_ l e)) σ
  | repeatNext {l e σ o τ} : Exec P (.list l) σ o τ → o ≠ .break_ →
      e.eval τ.store (.a .bool) = some (.bool false) → X (.stmt (.repeat_ l e)) τ →
      GoesOn P N X (.stmt (.repeat_ l e)) σ
  | for_ {x down a c s σ t i hi} : a.eval σ.store (.a x.ty) = some (.num t i) →
      c.eval σ.store (.a x.ty) = some (.num t hi) → Countable t down i hi →
      X (.loop x t down i hi s) (σ.set x (.num t i)) → GoesOn P N X (.stmt (.for_ x down a c s)) σ
  | loopBody {x t down i hi s σ} : goesOn down i hi → X (.stmt s) σ →
      GoesOn P N X (.loop x t down i hi s) σ
  | loopNext {x t down i hi s σ o τ} : goesOn down i hi → Exec P (.stmt s) σ o τ →
      o ≠ .break_ → τ.store x = some (.num t (wrap t i)) →
      X (.loop x t down (after1 down i) hi s) (τ.set x (.num t (wrap t (after1 down i)))) →
      GoesOn P N X (.loop x t down i hi s) σ
  | case_ {e cs σ v} : e.eval σ.store .ordinal = some v → X (.cases v cs) σ →
      GoesOn P N X (.stmt (.case_ e cs)) σ
  | block {l σ} : X (.list l) σ → GoesOn P N X (.stmt (.block l)) σ
  | call {q args σ vs} : argVals σ.store q.parms args = some vs → N q vs σ →
      GoesOn P N X (.stmt (.call q args)) σ
  | one {s σ} : X (.stmt s) σ → GoesOn P N X (.list (.one s)) σ
  | consFirst {s l σ} : X (.stmt s) σ → GoesOn P N X (.list (.cons s l)) σ
  | consNext {s l σ τ} : Exec P (.stmt s) σ .normal τ → X (.list l) τ →
      GoesOn P N X (.list (.cons s l)) σ
  | lastYes {k ks s semi σ v} : (∃ c ∈ k :: ks, c.is v) → X (.stmt s) σ →
      GoesOn P N X (.cases v (.last k ks s semi)) σ
  | moreYes {k ks s cs σ v} : (∃ c ∈ k :: ks, c.is v) → X (.stmt s) σ →
      GoesOn P N X (.cases v (.more k ks s cs)) σ
  | moreNo {k ks s cs σ v} : (¬ ∃ c ∈ k :: ks, c.is v) → X (.cases v cs) σ →
      GoesOn P N X (.cases v (.more k ks s cs)) σ
  | otherwise {s semi σ v} : X (.stmt s) σ → GoesOn P N X (.cases v (.otherwise s semi)) σ

/-- The execution of `c` in the state `σ` goes on forever: there are situations, this one among them, each of
which comes to another one of them (or to a call that does not end). -/
def Forever (P : Effects) (N : Endless) (c : Cmd) (σ : State) : Prop :=
  ∃ X : Cmd → State → Prop, X c σ ∧ ∀ c σ, X c σ → GoesOn P N X c σ

/-- The calls that do not end, if calls are nested at most `d` deep: the statements of the procedure go on
forever.  (Calls that are nested deeper and deeper need more and more of the stack, they are not among these.) -/
def CallsForever (D : Decls) : Nat → Endless
  | 0 => fun _ _ _ => False
  | d + 1 => fun q vs σ => ∃ decl, D q = some decl ∧
      Forever (Calls D d) (CallsForever D d) (.list decl.body) (σ.enter q vs)

/-! ### What is written -/

/-- The execution of `c` in the state `σ` comes, within `n` parts of it, to a moment at which `text` has been
written (all of it, and nothing else).  `W` are the calls that come to such a moment. -/
def WritesIn (P : Effects) (W : Endless) (text : List Byte) : Nat → Cmd → State → Prop
  | 0, _, σ => σ.out = some text
  | n + 1, c, σ => σ.out = some text ∨ GoesOn P W (WritesIn P W text n) c σ

/-- The calls that come to a moment at which `text` has been written, if calls are nested at most `d` deep. -/
def CallsWrite (D : Decls) (text : List Byte) : Nat → Endless
  | 0 => fun _ _ _ => False
  | d + 1 => fun q vs σ => ∃ decl n, D q = some decl ∧
      WritesIn (Calls D d) (CallsWrite D text d) text n (.list decl.body) (σ.enter q vs)

/-! ### Executions that go wrong -/

/-- The execution of `c` in the state `σ` goes wrong: it comes to something that has no meaning.  These are
expressions without a value (division by zero, an index outside of the bounds, a variable without a value),
a FOR that cannot count or whose body changes its variable, texts and inputs that cannot be written or read,
and calls that neither end nor go on forever. -/
inductive Wrong (P : Effects) (N : Endless) : Cmd → State → Prop where
  | assign {x e σ} : e.eval σ.store (.a x.ty) = none → Wrong P N (.stmt (.assign x e)) σ
  | assignAt {a i e σ} : (¬ ∃ w k v, i.eval σ.store (.a (.num .integer)) = some w ∧ a.pick w = some k ∧
      e.eval σ.store (.a a.ty) = some v) → Wrong P N (.stmt (.assignAt a i e)) σ
  | thenCond {e s σ} : (¬ ∃ b, e.eval σ.store (.a .bool) = some (.bool b)) → Wrong P N (.stmt (.ifThen e s)) σ
  | thenTrue {e s σ} : e.eval σ.store (.a .bool) = some (.bool true) → Wrong P N (.stmt s) σ →
      Wrong P N (.stmt (.ifThen e s)) σ
  | elseCond {e s t σ} : (¬ ∃ b, e.eval σ.store (.a .bool) = some (.bool b)) →
      Wrong P N (.stmt (.ifElse e s t)) σ
  | elseTrue {e s t σ} : e.eval σ.store (.a .bool) = some (.bool true) → Wrong P N (.stmt s) σ →
      Wrong P N (.stmt (.ifElse e s t)) σ
  | elseFalse {e s t σ} : e.eval σ.store (.a .bool) = some (.bool false) → Wrong P N (.stmt t) σ →
      Wrong P N (.stmt (.ifElse e s t)) σ
  | whileCond {e s σ} : (¬ ∃ b, e.eval σ.store (.a .bool) = some (.bool b)) → Wrong P N (.stmt (.while_ e s)) σ
  | whileBody {e s σ} : e.eval σ.store (.a .bool) = some (.bool true) → Wrong P N (.stmt s) σ →
      Wrong P N (.stmt (.while_ e s)) σ
  | whileNext {e s σ o τ} : e.eval σ.store (.a .bool) = some (.bool true) →
      Exec P (.stmt s) σ o τ → o ≠ .break_ → Wrong P N (.stmt (.while_ e s)) τ →
      Wrong P N (.stmt (.while_ e s)) σ
  | repeatBody {l e σ} : Wrong P N (.list l) σ → Wrong P N (.stmt (.repeat_ l e)) σ
  | repeatCond {l e σ o τ} : Exec P (.list l) σ o τ → o ≠ .break_ →
      (¬ ∃ b, e.eval τ.store (.a .bool) = some (.bool b)) → Wrong P N (.stmt (.repeat_ l e)) σ
  | repeatNext {l e σ o τ} : Exec P (.list l) σ o τ → o ≠ .break_ →
      e.eval τ.store (.a .bool) = some (.bool false) → Wrong P N (.stmt (.repeat_ l e)) τ →
      Wrong P N (.stmt (.repeat_ l e)) σ
  | forBounds {x down a c s σ} : (¬ ∃ t i hi, a.eval σ.store (.a x.ty) = some (.num t i) ∧
      c.eval σ.store (.a x.ty) = some (.num t hi) ∧ Countable t down i hi) →
      Wrong P N (.stmt (.for_ x down a c s)) σ
  | for_ {x down a c s σ t i hi} : a.eval σ.store (.a x.ty) = some (.num t i) →
      c.eval σ.store (.a x.ty) = some (.num t hi) → Countable t down i hi →
      Wrong P N (.loop x t down i hi s) (σ.set x (.num t i)) → Wrong P N (.stmt (.for_ x down a c s)) σ
  | loopBody {x t down i hi s σ} : goesOn down i hi → Wrong P N (.stmt s) σ →
      Wrong P N (.loop x t down i hi s) σ
  | loopVar {x t down i hi s σ o τ} : goesOn down i hi → Exec P (.stmt s) σ o τ →
      o ≠ .break_ → τ.store x ≠ some (.num t (wrap t i)) → Wrong P N (.loop x t down i hi s) σ
  | loopNext {x t down i hi s σ o τ} : goesOn down i hi → Exec P (.stmt s) σ o τ →
      o ≠ .break_ → τ.store x = some (.num t (wrap t i)) →
      Wrong P N (.loop x t down (after1 down i) hi s) (τ.set x (.num t (wrap t (after1 down i)))) →
      Wrong P N (.loop x t down i hi s) σ
  | caseValue {e cs σ} : e.eval σ.store .ordinal = none → Wrong P N (.stmt (.case_ e cs)) σ
  | case_ {e cs σ v} : e.eval σ.store .ordinal = some v → Wrong P N (.cases v cs) σ →
      Wrong P N (.stmt (.case_ e cs)) σ
  | block {l σ} : Wrong P N (.list l) σ → Wrong P N (.stmt (.block l)) σ
  | write {ln file i is σ} : (¬ ∃ old text, σ.out = some old ∧ Texts σ.store (i :: is) text) →
      Wrong P N (.stmt (.write ln file i is)) σ
  | newline {parens σ} : σ.out = none → Wrong P N (.stmt (.newline parens)) σ
  | read {file x xs σ} : (¬ ∃ τ, ReadVars (x :: xs) σ τ) → Wrong P N (.stmt (.read false file x xs)) σ
  | readln {file x xs σ} : (¬ ∃ τ υ, ReadVars (x :: xs) σ τ ∧ NextLine τ υ) →
      Wrong P N (.stmt (.read true file x xs)) σ
  | skipLine {parens σ} : (¬ ∃ τ, NextLine σ τ) → Wrong P N (.stmt (.skipLine parens)) σ
  | callArgs {q args σ} : argVals σ.store q.parms args = none → Wrong P N (.stmt (.call q args)) σ
  | call {q args σ vs} : argVals σ.store q.parms args = some vs → (¬ ∃ τ, P q vs σ τ) → ¬ N q vs σ →
      Wrong P N (.stmt (.call q args)) σ
  | one {s σ} : Wrong P N (.stmt s) σ → Wrong P N (.list (.one s)) σ
  | consFirst {s l σ} : Wrong P N (.stmt s) σ → Wrong P N (.list (.cons s l)) σ
  | consNext {s l σ τ} : Exec P (.stmt s) σ .normal τ → Wrong P N (.list l) τ →
      Wrong P N (.list (.cons s l)) σ
  | lastYes {k ks s semi σ v} : (∃ c ∈ k :: ks, c.is v) → Wrong P N (.stmt s) σ →
      Wrong P N (.cases v (.last k ks s semi)) σ
  | moreYes {k ks s cs σ v} : (∃ c ∈ k :: ks, c.is v) → Wrong P N (.stmt s) σ →
      Wrong P N (.cases v (.more k ks s cs)) σ
  | moreNo {k ks s cs σ v} : (¬ ∃ c ∈ k :: ks, c.is v) → Wrong P N (.cases v cs) σ →
      Wrong P N (.cases v (.more k ks s cs)) σ
  | otherwise {s semi σ v} : Wrong P N (.stmt s) σ → Wrong P N (.cases v (.otherwise s semi)) σ

end Pas.Src
