import Verif.Spec.Storage
import Verif.Spec.Labels
import Verif.Spec.Files
import Verif.Model.SysIo

/-! The statements of the source language of properties C49, C50 and C52: how they are written,
when they are correct and what they do. -/
namespace Pas.Src
open Pas.Comp (Tk)

/-! ### Statements -/

/-- A constant of a CASE. -/
inductive Const where
  | int (n : Nat) | bool (b : Bool) | char (c : Byte)
  deriving DecidableEq, Repr

/-- What WRITE and WRITELN write: values, with an optional field width, and string constants. -/
inductive Item where
  /-- `e` or `e : w` -/
  | val (e : E .expr) (w : Option (E .expr))
  /-- `'text'` -/
  | str (t : List Byte)

/-- The kinds of phrases: statements, statement sequences and the cases of a CASE statement. -/
inductive SK where | stmt | list | cases

/-- Statements. -/
inductive S : SK → Type where
  /-- nothing -/
  | empty : S .stmt
  /-- `x := e` -/
  | assign (x : Variable) (e : E .expr) : S .stmt
  /-- `a[i] := e` -/
  | assignAt (a : Arr) (i e : E .expr) : S .stmt
  /-- `if e then s` -/
  | ifThen (e : E .expr) (s : S .stmt) : S .stmt
  /-- `if e then s else t` -/
  | ifElse (e : E .expr) (s t : S .stmt) : S .stmt
  /-- `while e do s` -/
  | while_ (e : E .expr) (s : S .stmt) : S .stmt
  /-- `repeat l until e` -/
  | repeat_ (l : S .list) (e : E .expr) : S .stmt
  /-- `for x := a to c do s`, or with `downto` -/
  | for_ (x : Variable) (down : Bool) (a c : E .expr) (s : S .stmt) : S .stmt
  /-- `case e of …` -/
  | case_ (e : E .expr) (cs : S .cases) : S .stmt
  /-- `begin l end` -/
  | block (l : S .list) : S .stmt
  | break_ : S .stmt
  | continue_ : S .stmt
  /-- `write(i, …)` or `writeln(i, …)`, with the name of the file OUTPUT in front or not -/
  | write (ln file : Bool) (i : Item) (is : List Item) : S .stmt
  /-- `writeln` or `writeln()` -/
  | newline (parens : Bool) : S .stmt
  /-- `read(x, …)` or `readln(x, …)`, with the name of the file INPUT in front or not -/
  | read (ln file : Bool) (x : Variable) (xs : List Variable) : S .stmt
  /-- `readln` or `readln()` -/
  | skipLine (parens : Bool) : S .stmt
  /-- `q(e, …)`, or `q` if there are no parameters -/
  | call (q : Proc) (args : List (E .expr)) : S .stmt
  /-- a sequence of one statement -/
  | one (s : S .stmt) : S .list
  /-- `s ; l` -/
  | cons (s : S .stmt) (l : S .list) : S .list
  /-- `k, … : s end` or `k, … : s ; end` -/
  | last (k : Const) (ks : List Const) (s : S .stmt) (semi : Bool) : S .cases
  /-- `k, … : s ; …` -/
  | more (k : Const) (ks : List Const) (s : S .stmt) (cs : S .cases) : S .cases
  /-- `else s end` or `else s ; end` -/
  | otherwise (s : S .stmt) (semi : Bool) : S .cases

def Const.tk : Const → Tk
  | .int n => .int (BitVec.ofNat 32 n)
  | .bool b => .bool (if b then 0xffffffff#32 else 0#32)
  | .char c => .char (c.zeroExtend 32)

/-- `k, k', …` -/
def constToks : Const → List Const → List Tk
  | k, [] => [k.tk]
  | k, k' :: ks => k.tk :: .comma :: constToks k' ks

def Item.toks : Item → List Tk
  | .val e none => e.toks
  | .val e (some w) => e.toks ++ .colon :: w.toks
  | .str t => [.str t]

/-- `i, i', …` -/
def itemToks : Item → List Item → List Tk
  | i, [] => i.toks
  | i, i' :: is => i.toks ++ .comma :: itemToks i' is

/-- `e, e', …` -/
def argToks : List (E .expr) → List Tk
  | [] => []
  | [e] => e.toks
  | e :: e' :: es => e.toks ++ .comma :: argToks (e' :: es)

/-- `x, x', …` -/
def readToks : Variable → List Variable → List Tk
  | x, [] => [x.tk]
  | x, x' :: xs => x.tk :: .comma :: readToks x' xs

/-- How statements are written.  The file INPUT is the one at offset 0, OUTPUT the one at offset 2. -/
def S.toks : {k : SK} → S k → List Tk
  | _, .empty => []
  | _, .assign x e => x.tk :: .assign :: e.toks
  | _, .assignAt a i e => a.tk :: .lbracket :: (i.toks ++ .rbracket :: .assign :: e.toks)
  | _, .ifThen e s => .if_ :: (e.toks ++ .then_ :: s.toks)
  | _, .ifElse e s t => .if_ :: (e.toks ++ .then_ :: (s.toks ++ .else_ :: t.toks))
  | _, .while_ e s => .while_ :: (e.toks ++ .do_ :: s.toks)
  | _, .repeat_ l e => .repeat_ :: (l.toks ++ .until_ :: e.toks)
  | _, .for_ x down a c s => .for_ :: x.tk :: .assign ::
      (a.toks ++ (if down then .downto_ else .to_) :: (c.toks ++ .do_ :: s.toks))
  | _, .case_ e cs => .case_ :: (e.toks ++ .of_ :: cs.toks)
  | _, .block l => .begin_ :: (l.toks ++ [.end_])
  | _, .break_ => [.break_]
  | _, .continue_ => [.continue_]
  | _, .write ln file i is => (if ln then .writeln_ else .write_) :: .lparen ::
      ((if file then [.file 2, .comma] else []) ++ (itemToks i is ++ [.rparen]))
  | _, .newline parens => .writeln_ :: (if parens then [.lparen, .rparen] else [])
  | _, .read ln file x xs => (if ln then .readln_ else .read_) :: .lparen ::
      ((if file then [.file 0, .comma] else []) ++ (readToks x xs ++ [.rparen]))
  | _, .skipLine parens => .readln_ :: (if parens then [.lparen, .rparen] else [])
  | _, .call q args => q.tk ::
      (if args = [] then [] else .lparen :: (argToks args ++ [.rparen]))
  | _, .one s => s.toks
  | _, .cons s l => s.toks ++ .semi :: l.toks
  | _, .last k ks s semi =>
    constToks k ks ++ .colon :: (s.toks ++ (if semi then [.semi, .end_] else [.end_]))
  | _, .more k ks s cs => constToks k ks ++ .colon :: (s.toks ++ .semi :: cs.toks)
  | _, .otherwise s semi => .else_ :: (s.toks ++ (if semi then [.semi, .end_] else [.end_]))

/-- The tokens that can follow a statement. -/
def Follows (rest : List Tk) : Prop :=
  ∃ t r, rest = t :: r ∧ t ∈ [Tk.semi, .end_, .until_, .else_, .period]

/-- The statement ends in an IF without ELSE: an ELSE that follows belongs to it. -/
def S.opn : {k : SK} → S k → Bool
  | _, .ifThen _ _ => true
  | _, .ifElse _ _ t => t.opn
  | _, .while_ _ s => s.opn
  | _, .for_ _ _ _ _ s => s.opn
  | _, _ => false

/-! ### Correct statements -/

/-- A constant for a CASE over values of the type: natural numbers of the type, FALSE and ASCII
characters.  (The compiler rejects negative constants and TRUE, see C49_violation_case_true.) -/
def Const.fits : Const → Ty → Prop
  | .int n, .num t => n ≤ if t.signed then 32767 else 65535
  | .bool b, .bool => b = false
  | .char c, .char => c.toNat < 128
  | _, _ => False

/-- The constants of the cases fit the type. -/
def S.labels (ty : Ty) : {k : SK} → S k → Prop
  | _, .last k ks _ _ => ∀ c ∈ k :: ks, c.fits ty
  | _, .more k ks _ cs => (∀ c ∈ k :: ks, c.fits ty) ∧ cs.labels ty
  | _, _ => True

/-- The expression is correct, only uses the variables and has the type. -/
def E.Ok (vars : Variable → Prop) (x : Expect) (ty : Ty) (e : E .expr) : Prop :=
  (∀ y ∈ e.vars, vars y) ∧ e.typeOf x = some ty

/-- What can be written: numbers and characters, with a field width that is a short integer, and
string constants of at most 32767 characters other than NUL.  (The compiler rejects Boolean values,
see C70_violation_boolean.) -/
def Item.Ok (vars : Variable → Prop) : Item → Prop
  | .val e w => (∃ ty, e.Ok vars .any ty ∧ ty ≠ .bool) ∧
      ∀ u ∈ w, u.Ok vars (.a (.num .shortInteger)) (.num .shortInteger)
  | .str t => t.length ≤ 32767 ∧ 0#8 ∉ t

/-- There is an expression of the right type for each parameter. -/
def ParmsOk (vars : Variable → Prop) : List Ty → List (E .expr) → Prop
  | [], [] => True
  | t :: ts, e :: es => e.Ok vars (.a t) t ∧ ParmsOk vars ts es
  | _, _ => False

/-- Correct statements with these variables and procedures.  `brk`, `con`: BREAK and CONTINUE are allowed.
Excluded are CONTINUE directly in a REPEAT (see C49_violation_repeat_continue), FOR with short
variables (C50_violation_short) and FOR with a limit that mentions the control variable
(C50_violation_order). -/
def S.Ok (vars : Variable → Prop) (procs : Proc → Prop) : {k : SK} → (brk con : Bool) → S k → Prop
  | _, _, _, .empty => True
  | _, _, _, .assign x e => vars x ∧ e.Ok vars (.a x.ty) x.ty
  | _, _, _, .assignAt a i e => a.Ok ∧ (∀ x ∈ a.elems, vars x) ∧
      i.Ok vars (.a (.num .integer)) (.num .integer) ∧ e.Ok vars (.a a.ty) a.ty
  | _, b, c, .ifThen e s => e.Ok vars (.a .bool) .bool ∧ s.Ok vars procs b c
  | _, b, c, .ifElse e s t => e.Ok vars (.a .bool) .bool ∧ s.Ok vars procs b c ∧ t.Ok vars procs b c ∧
      s.opn = false
  | _, _, _, .while_ e s => e.Ok vars (.a .bool) .bool ∧ s.Ok vars procs true true
  | _, _, _, .repeat_ l e => l.Ok vars procs true false ∧ e.Ok vars (.a .bool) .bool
  | _, _, _, .for_ x _ a c s => vars x ∧ (x.ty = .num .integer ∨ x.ty = .num .word) ∧
      a.Ok vars (.a x.ty) x.ty ∧ c.Ok vars (.a x.ty) x.ty ∧ x ∉ c.vars ∧
      s.Ok vars procs true true
  | _, b, c, .case_ e cs => ∃ ty, e.Ok vars .ordinal ty ∧ cs.labels ty ∧ cs.Ok vars procs b c
  | _, b, c, .block l => l.Ok vars procs b c
  | _, b, _, .break_ => b = true
  | _, _, c, .continue_ => c = true
  | _, _, _, .write _ _ i is => ∀ j ∈ i :: is, j.Ok vars
  | _, _, _, .newline _ => True
  | _, _, _, .read _ _ x xs => ∀ y ∈ x :: xs, vars y ∧ (y.ty = .num .integer ∨ y.ty = .char)
  | _, _, _, .skipLine _ => True
  | _, _, _, .call q args => procs q ∧ ParmsOk vars q.parms args
  | _, b, c, .one s => s.Ok vars procs b c
  | _, b, c, .cons s l => s.Ok vars procs b c ∧ l.Ok vars procs b c
  | _, b, c, .last _ _ s _ => s.Ok vars procs b c
  | _, b, c, .more _ _ s cs => s.Ok vars procs b c ∧ cs.Ok vars procs b c
  | _, b, c, .otherwise s _ => s.Ok vars procs b c

/-! ### Meaning -/

/-- The store after an assignment. -/
def Store.set (σ : Store) (x : Variable) (v : Val) : Store := fun y => if y = x then some v else σ y

/-- The standard input of a program: the characters that have not been read, and whether READ has
already read something of the line they begin with. -/
structure Inp where
  begun : Bool
  rest : List Byte

/-- The state of a program: the values of its variables, everything that has been written to the
standard output so far, and the standard input.  If there is no standard output (`none`) WRITE cannot be
executed, if there is no standard input READ cannot be executed. -/
structure State where
  store : Store
  out : Option (List Byte)
  inp : Option Inp

/-- There is a standard output or a standard input. -/
def State.io (σ : State) : Bool := σ.out.isSome || σ.inp.isSome

/-- The state after an assignment. -/
def State.set (σ : State) (x : Variable) (v : Val) : State := { σ with store := σ.store.set x v }

/-- The field width: 0 if none is given, otherwise a value from 0 to 255. -/
def Width (σ : Store) : Option (E .expr) → Nat → Prop
  | none, k => k = 0
  | some w, k => w.eval σ (.a (.num .shortInteger)) = some (.num .shortInteger k) ∧ k ≤ 255

/-- The text of a value: numbers in decimal notation, right-justified in the field. -/
def Val.Text (k : Nat) : Val → List Byte → Prop
  | .num _ i, out => ∃ l, Spec.DecimalInt l i ∧ Spec.Justified k l out
  | .char c, out => Spec.Justified k [c] out
  | .bool _, _ => False

/-- The text of an item. -/
def Item.Text (σ : Store) : Item → List Byte → Prop
  | .val e w, out => ∃ v k, e.eval σ .any = some v ∧ Width σ w k ∧ v.Text k out
  | .str t, out => out = t

/-- The text of several items. -/
inductive Texts (σ : Store) : List Item → List Byte → Prop where
  | nil : Texts σ [] []
  | cons {i is a b} : i.Text σ a → Texts σ is b → Texts σ (i :: is) (a ++ b)

/-- What READ does: a value of the type is read from the input, and the rest of the input remains.

An integer is preceded by blanks and, if something has been read of the line, by blanks and the end of that
line; a digit does not follow it.  A character is the next one.  Excluded are several values in one line, empty
lines before a number, the end of a line read as a character, and lines of more than 254 characters or
with NUL (see C65_violation_second_number,
C65_violation_empty_line, C79_violation_end, C65_violation_long_line). -/
inductive Reads1 : Ty → Inp → Val → Inp → Prop where
  | int {begun skip blanks num tail more i} : (∀ b ∈ skip, Spec.BlankChar b) → 10#8 ∉ skip →
      (∀ b ∈ blanks, Spec.BlankChar b) → Spec.Numeral num i →
      -32767 ≤ i → i ≤ 32767 → (∀ c ∈ tail.head?, ¬ (48 ≤ c.toNat ∧ c.toNat ≤ 57)) →
      10#8 ∉ blanks ++ num ++ tail → 0#8 ∉ blanks ++ num ++ tail →
      (blanks ++ num ++ tail).length ≤ 254 →
      Reads1 (.num .integer)
        ⟨begun, (if begun then skip ++ [10#8] else []) ++ (blanks ++ num ++ tail ++ 10#8 :: more)⟩
        (.num .integer i) ⟨true, tail ++ 10#8 :: more⟩
  | char {c tail more} : 10#8 ∉ c :: tail → 0#8 ∉ c :: tail → (c :: tail).length ≤ 254 →
      Reads1 .char ⟨false, c :: (tail ++ 10#8 :: more)⟩ (.char c) ⟨true, tail ++ 10#8 :: more⟩

/-- Values are read into the variables, from the first to the last. -/
inductive ReadVars : List Variable → State → State → Prop where
  | nil {σ} : ReadVars [] σ σ
  | cons {x xs σ i v i' τ} : σ.inp = some i → Reads1 x.ty i v i' →
      ReadVars xs { σ.set x v with inp := some i' } τ → ReadVars (x :: xs) σ τ

/-- The rest of the line and its end are passed. -/
inductive NextLine : State → State → Prop where
  | mk {σ begun line more} : σ.inp = some ⟨begun, line ++ 10#8 :: more⟩ → 10#8 ∉ line →
      NextLine σ { σ with inp := some ⟨false, more⟩ }

/-- The constant denotes the value. -/
def Const.is : Const → Val → Prop
  | .int n, .num _ i => i = n
  | .bool b, .bool c => b = c
  | .char c, .char d => c = d
  | _, _ => False

/-- How a statement ends: normally, by a BREAK or by a CONTINUE of an enclosing loop. -/
inductive Outcome where | normal | break_ | continue_
  deriving DecidableEq, Repr

/-- What is executed: a statement, a sequence of statements, the cases of a CASE for a value, or
the iterations `i`, … up (or down) to `hi` of a FOR. -/
inductive Cmd where
  | stmt (s : S .stmt)
  | list (l : S .list)
  | cases (v : Val) (cs : S .cases)
  | loop (x : Variable) (t : IntTy) (down : Bool) (i hi : Int) (s : S .stmt)

/-- There is a next iteration. -/
def goesOn (down : Bool) (i hi : Int) : Prop := if down then hi ≤ i else i ≤ hi

/-- The next value of the control variable. -/
def after1 (down : Bool) (i : Int) : Int := if down then i - 1 else i + 1

/-- The FOR loop can be executed: the limit is not the last value of the signed 16-bit integers
(see C50_violation_maxint), and words are below 2^15 (see C50_violation_word). -/
def Countable : IntTy → (down : Bool) → (i hi : Int) → Prop
  | .word, down, i, hi => i ≤ 32767 ∧ hi ≤ 32767 ∧ (down = false → hi < 32767)
  | _, down, _, hi => if down then -32768 < hi else hi < 32767

/-- The values of the parameters of a call. -/
def argVals (σ : Store) : List Ty → List (E .expr) → Option (List Val)
  | [], [] => some []
  | t :: ts, e :: es => do
      let v ← e.eval σ (.a t)
      let vs ← argVals σ ts es
      pure (v.trim :: vs)
  | _, _ => none

/-- What calls do: `P q vs σ τ` means that the procedure `q`, called with the values `vs` in the state
`σ`, ends in the state `τ`. -/
abbrev Effects := Proc → List Val → State → State → Prop

/-- There are no procedures that could be called. -/
def noCalls : Effects := fun _ _ _ _ => False

/-- `Exec P c σ o τ`: the execution of `c` in the state `σ` ends with `o` in the state `τ`, if calls do
what `P` says.  In a FOR loop the control variable must have the value of the iteration when the body
has been executed: the body must not change it. -/
inductive Exec (P : Effects) : Cmd → State → Outcome → State → Prop where
  | empty {σ} : Exec P (.stmt .empty) σ .normal σ
  | assign {x e σ v} : e.eval σ.store (.a x.ty) = some v →
      Exec P (.stmt (.assign x e)) σ .normal (σ.set x v.trim)
  /-- The index must be within the bounds. -/
  | assignAt {a i e σ w k v} : i.eval σ.store (.a (.num .integer)) = some w → a.pick w = some k →
      e.eval σ.store (.a a.ty) = some v →
      Exec P (.stmt (.assignAt a i e)) σ .normal (σ.set (a.elem k) v.trim)
  | thenTrue {e s σ o τ} : e.eval σ.store (.a .bool) = some (.bool true) → Exec P (.stmt s) σ o τ →
      Exec P (.stmt (.ifThen e s)) σ o τ
  | thenFalse {e s σ} : e.eval σ.store (.a .bool) = some (.bool false) →
      Exec P (.stmt (.ifThen e s)) σ .normal σ
  | elseTrue {e s t σ o τ} : e.eval σ.store (.a .bool) = some (.bool true) → Exec P (.stmt s) σ o τ →
      Exec P (.stmt (.ifElse e s t)) σ o τ
  | elseFalse {e s t σ o τ} : e.eval σ.store (.a .bool) = some (.bool false) → Exec P (.stmt t) σ o τ →
      Exec P (.stmt (.ifElse e s t)) σ o τ
  | whileEnd {e s σ} : e.eval σ.store (.a .bool) = some (.bool false) →
      Exec P (.stmt (.while_ e s)) σ .normal σ
  | whileBreak {e s σ τ} : e.eval σ.store (.a .bool) = some (.bool true) →
      Exec P (.stmt s) σ .break_ τ → Exec P (.stmt (.while_ e s)) σ .normal τ
  | whileNext {e s σ o τ o' υ} : e.eval σ.store (.a .bool) = some (.bool true) →
      Exec P (.stmt s) σ o τ → o ≠ .break_ → Exec P (.stmt (.while_ e s)) τ o' υ →
      Exec P (.stmt (.while_ e s)) σ o' υ
  | repeatEnd {l e σ o τ} : Exec P (.list l) σ o τ → o ≠ .break_ →
      e.eval τ.store (.a .bool) = some (.bool true) → Exec P (.stmt (.repeat_ l e)) σ .normal τ
  | repeatBreak {l e σ τ} : Exec P (.list l) σ .break_ τ → Exec P (.stmt (.repeat_ l e)) σ .normal τ
  | repeatNext {l e σ o τ o' υ} : Exec P (.list l) σ o τ → o ≠ .break_ →
      e.eval τ.store (.a .bool) = some (.bool false) → Exec P (.stmt (.repeat_ l e)) τ o' υ →
      Exec P (.stmt (.repeat_ l e)) σ o' υ
  /-- Both bounds are evaluated before the loop starts. -/
  | for_ {x down a c s σ t i hi o τ} : a.eval σ.store (.a x.ty) = some (.num t i) →
      c.eval σ.store (.a x.ty) = some (.num t hi) → Countable t down i hi →
      Exec P (.loop x t down i hi s) (σ.set x (.num t i)) o τ →
      Exec P (.stmt (.for_ x down a c s)) σ o τ
  | loopEnd {x t down i hi s σ} : ¬ goesOn down i hi → Exec P (.loop x t down i hi s) σ .normal σ
  | loopBreak {x t down i hi s σ τ} : goesOn down i hi → Exec P (.stmt s) σ .break_ τ →
      Exec P (.loop x t down i hi s) σ .normal τ
  | loopNext {x t down i hi s σ o τ o' υ} : goesOn down i hi → Exec P (.stmt s) σ o τ →
      o ≠ .break_ → τ.store x = some (.num t (wrap t i)) →
      Exec P (.loop x t down (after1 down i) hi s) (τ.set x (.num t (wrap t (after1 down i)))) o' υ →
      Exec P (.loop x t down i hi s) σ o' υ
  | case_ {e cs σ v o τ} : e.eval σ.store .ordinal = some v → Exec P (.cases v cs) σ o τ →
      Exec P (.stmt (.case_ e cs)) σ o τ
  | block {l σ o τ} : Exec P (.list l) σ o τ → Exec P (.stmt (.block l)) σ o τ
  | break_ {σ} : Exec P (.stmt .break_) σ .break_ σ
  | continue_ {σ} : Exec P (.stmt .continue_) σ .continue_ σ
  | write {ln file i is σ text old} : σ.out = some old → Texts σ.store (i :: is) text →
      Exec P (.stmt (.write ln file i is)) σ .normal
        { σ with out := some (old ++ text ++ if ln then [10#8] else []) }
  | newline {parens σ old} : σ.out = some old →
      Exec P (.stmt (.newline parens)) σ .normal { σ with out := some (old ++ [10#8]) }
  | read {file x xs σ τ} : ReadVars (x :: xs) σ τ → Exec P (.stmt (.read false file x xs)) σ .normal τ
  | readln {file x xs σ τ υ} : ReadVars (x :: xs) σ τ → NextLine τ υ →
      Exec P (.stmt (.read true file x xs)) σ .normal υ
  | skipLine {parens σ τ} : NextLine σ τ → Exec P (.stmt (.skipLine parens)) σ .normal τ
  | call {q args σ vs τ} : argVals σ.store q.parms args = some vs → P q vs σ τ →
      Exec P (.stmt (.call q args)) σ .normal τ
  | one {s σ o τ} : Exec P (.stmt s) σ o τ → Exec P (.list (.one s)) σ o τ
  | consStop {s l σ o τ} : Exec P (.stmt s) σ o τ → o ≠ .normal → Exec P (.list (.cons s l)) σ o τ
  | cons {s l σ τ o υ} : Exec P (.stmt s) σ .normal τ → Exec P (.list l) τ o υ →
      Exec P (.list (.cons s l)) σ o υ
  | lastYes {k ks s semi σ v o τ} : (∃ c ∈ k :: ks, c.is v) → Exec P (.stmt s) σ o τ →
      Exec P (.cases v (.last k ks s semi)) σ o τ
  /-- If no constant denotes the value, nothing happens. -/
  | lastNo {k ks s semi σ v} : (¬ ∃ c ∈ k :: ks, c.is v) →
      Exec P (.cases v (.last k ks s semi)) σ .normal σ
  | moreYes {k ks s cs σ v o τ} : (∃ c ∈ k :: ks, c.is v) → Exec P (.stmt s) σ o τ →
      Exec P (.cases v (.more k ks s cs)) σ o τ
  | moreNo {k ks s cs σ v o τ} : (¬ ∃ c ∈ k :: ks, c.is v) → Exec P (.cases v cs) σ o τ →
      Exec P (.cases v (.more k ks s cs)) σ o τ
  | otherwise {s semi σ v o τ} : Exec P (.stmt s) σ o τ →
      Exec P (.cases v (.otherwise s semi)) σ o τ

/-! ### FOR in closed form -/

/-- The values of the control variable: `lo`, `lo + 1`, …, `hi`, or `lo`, `lo - 1`, …, `hi`. -/
def values (down : Bool) (lo hi : Int) : List Int :=
  if down then (List.range (lo - hi + 1).toNat).map fun k : Nat => lo - (k : Int)
  else (List.range (hi - lo + 1).toNat).map fun k : Nat => lo + (k : Int)

/-- `Iter x t s is σ τ`: executing `s` once for each value of the list, assigned to `x`, leads from
`σ` to `τ`.  An iteration may end by CONTINUE, but not by BREAK, and does not change `x`. -/
inductive Iter (P : Effects) (x : Variable) (t : IntTy) (s : S .stmt) :
    List Int → State → State → Prop where
  | nil {σ} : Iter P x t s [] σ σ
  | cons {i is σ o τ υ} : Exec P (.stmt s) (σ.set x (.num t i)) o τ → o ≠ .break_ →
      τ.store x = some (.num t i) → Iter P x t s is τ υ → Iter P x t s (i :: is) σ υ

/-! ### On the machine -/

/-- No label is defined twice. -/
def Uniq (p : List OpType) : Prop :=
  ∀ (i j : Nat) (L : Word), p[i]? = some (Spec.labelMark L) → p[j]? = some (Spec.labelMark L) → i = j


/-- Number of words of the stack an item needs. -/
def Item.need : Item → Nat
  | .val e none => 1 + max e.toks.length 2
  | .val e (some w) => 1 + max e.toks.length (1 + max w.toks.length 2)
  | .str _ => 5

/-- Number of words of the stack several items need. -/
def itemsNeed : List Item → Nat
  | [] => 0
  | i :: is => max i.need (itemsNeed is)

/-- Number of words of the stack a call needs, if the procedure needs `c` words. -/
def argsNeed (c : Nat) : List (E .expr) → Nat
  | [] => c
  | e :: es => max e.toks.length (1 + argsNeed c es)

/-- Number of words of the stack a statement needs, if calls need `n` words besides their
parameters. -/
def S.need (n : Nat) : {k : SK} → S k → Nat
  | _, .assign _ e => e.toks.length
  | _, .assignAt _ i e => max (i.toks.length + 1) (1 + e.toks.length)
  | _, .ifThen e s => max e.toks.length (s.need n)
  | _, .ifElse e s t => max e.toks.length (max (s.need n) (t.need n))
  | _, .while_ e s => max e.toks.length (s.need n)
  | _, .repeat_ l e => max (l.need n) e.toks.length
  | _, .for_ _ _ a c s => max (max a.toks.length c.toks.length) (max 3 (s.need n + 1))
  | _, .case_ e cs => max e.toks.length (max 3 (cs.need n + 1))
  | _, .block l => l.need n
  | _, .one s => s.need n
  | _, .cons s l => max (s.need n) (l.need n)
  | _, .last _ _ s _ => s.need n
  | _, .more _ _ s cs => max (s.need n) (cs.need n)
  | _, .otherwise s _ => s.need n
  | _, .write _ _ i is => 1 + itemsNeed (i :: is)
  | _, .newline _ => 1
  | _, .read _ _ _ _ => 3
  | _, .skipLine _ => 1
  | _, .call _ args => argsNeed n args
  | _, _ => 0

/-- There is a standard output, `text` is what has been written to it, and string constants can be
written: the word at offset 2 of the outermost level, which is not above word `b`, contains the file
number 1, this is the standard output, and the constants `ro` are at the base of the constants, also
not above word `b`; none of this is part of a variable. -/
structure Env.Output (Γ : Env) (lib : Lib) (ro : List Byte) (s : VM) (b : Nat) (text : List Byte) :
    Prop where
  lib : ∃ fpu host, lib.sysIo = SysIo.sysIo fpu host
  stream : Spec.OpenOut s 1#16 .stdout text.length
  text : Spec.fileText s .stdout = text
  even : s.spb.toNat % 2 = 0
  inside : s.spb.toNat + 2 < 65536 ∧ (s.spb.toNat + 2) / 2 ≤ b
  number : s.mem ((s.spb.toNat + 2) / 2) = 1#16
  apart : ∀ y a, Γ.vars y → Γ.Owns y a → a / 2 ≠ (s.spb.toNat + 2) / 2
  fits : s.rop.toNat + ro.length ≤ 65535 ∧ (s.rop.toNat + ro.length) / 2 ≤ b
  consts : ∀ j (h : j < ro.length), Spec.byte s.mem (s.rop.toNat + j) = ro[j]
  constsApart : ∀ y a, Γ.vars y → Γ.Owns y a → s.rop.toNat + ro.length ≤ a

/-- There is a standard input, in the state `i`: the word at offset 0 of the outermost level, which is
not above word `b` and not part of a variable, contains the file number 0, this is the standard input, and
what has not been read is there.  Of a line of which something has been read nothing is left, and the
machine has noted this. -/
structure Env.Input (Γ : Env) (lib : Lib) (s : VM) (b : Nat) (i : Inp) : Prop where
  lib : ∃ fpu host, lib.sysIo = SysIo.sysIo fpu host
  stream : ∃ pos, Spec.OpenIn s 0#16 .stdin pos ∧
    if i.begun then ∃ tail, 10#8 ∉ tail ∧ i.rest = tail ++ 10#8 :: (Spec.fileText s .stdin).drop pos
    else i.rest = (Spec.fileText s .stdin).drop pos
  eoln : (s.io.table 0).eoln = i.begun
  even : s.spb.toNat % 2 = 0
  inside : s.spb.toNat / 2 ≤ b
  number : s.mem (s.spb.toNat / 2) = 0#16
  apart : ∀ y a, Γ.vars y → Γ.Owns y a → a / 2 ≠ s.spb.toNat / 2

/-- The machine is in the state `σ` of the program: its memory holds the values of the variables,
the standard output, if there is one, contains what the program has written, and the standard input what
it has not read. -/
structure Env.Has (Γ : Env) (lib : Lib) (ro : List Byte) (s : VM) (b : Nat) (σ : State) : Prop where
  holds : Γ.Holds s.mem σ.store
  output : ∀ text, σ.out = some text → Γ.Output lib ro s b text
  input : ∀ i, σ.inp = some i → Γ.Input lib s b i

/-- `t` differs from `s` at most in the stack pointer, in the memory above the top of the stack
and in variables and, if `out`, in the contents of the standard output and in the file numbers 0 and 1,
the standard input and output. -/
structure Env.Keeps (Γ : Env) (out : Bool) (s t : VM) : Prop where
  regs : t = { s with
    sp := t.sp
    mem := t.mem
    io := t.io }
  quiet : out = false → t.io = s.io
  files : ∀ f, f ≠ .stdout → t.io.files f = s.io.files f
  numbers : ∀ i, i ≠ 0 → i ≠ 1 → t.io.table i = s.io.table i
  kept : ∀ a, a / 2 ≤ s.sp.toNat / 2 → (∀ y, Γ.vars y → ¬ Γ.Owns y a) →
    Spec.byte t.mem a = Spec.byte s.mem a

/-- Number of labels a statement uses. -/
def S.nlab : {k : SK} → S k → Nat
  | _, .ifThen _ s => 1 + s.nlab
  | _, .ifElse _ s t => 2 + s.nlab + t.nlab
  | _, .while_ _ s => 2 + s.nlab
  | _, .repeat_ l _ => 2 + l.nlab
  | _, .for_ _ _ _ _ s => 3 + s.nlab
  | _, .case_ _ cs => 2 + cs.nlab
  | _, .block l => l.nlab
  | _, .one s => s.nlab
  | _, .cons s l => s.nlab + l.nlab
  | _, .last _ _ s _ => 2 + s.nlab
  | _, .more _ _ s cs => 2 + s.nlab + cs.nlab
  | _, .otherwise s _ => 1 + s.nlab
  | _, _ => 0

end Pas.Src
