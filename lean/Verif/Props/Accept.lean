import Verif.Lemmas.AcceptStmt
import Verif.Props.Compile

/-! Property C82: what the compiler accepts is a sentence of the language. -/
namespace Pas.Accept
open Pas.Comp
open Pas.Src (Lvl start)

/-! ### Expressions -/

/-- C82 (partial: the rules are those of `checked`, not all of `pascal`; the part of the language that is
modelled): if an expression is compiled without an error, for any tokens and any state of the compiler, then
the tokens that have been read are an expression of the type that is wanted. -/
theorem C82_expression_partial (g : Cfg) (n : Nat) (k : Kind) (s s' : CS) (t : ET)
    (accepted : expression g n k.et s = some (t, s')) (noError : s'.errs = s.errs) :
    ∃ ts, s.toks = ts ++ s'.toks ∧ Form checked .expr ts k := (expr_took accepted).read noError

/-- C82 (partial, as above): where any type will do, the tokens are an expression of the type that the compiler
goes on with. -/
theorem C82_any_expression_partial (g : Cfg) (n : Nat) (s s' : CS) (t : ET)
    (accepted : expression g n .unknown s = some (t, s')) (noError : s'.errs = s.errs) :
    ∃ ts k, s.toks = ts ++ s'.toks ∧ Form checked .expr ts k ∧ k.et = t := by
  obtain ⟨ts, h1, k, hk, hf⟩ := (any_took accepted).read noError
  exact ⟨ts, k, h1, hf, hk⟩

/-- C82: errors are never taken back, and no error stays unnoticed because of a later one. -/
theorem C82_errors_stay (g : Cfg) (n : Nat) (s s' : CS) (accepted : statement g n s = some s') :
    s.errs ≤ s'.errs := ((knownS g n).stmt s s' true accepted (inside_true s)).le

/-! ### Statements -/

/-- C82 (partial: the rules are those of `checked`, not all of `pascal`; the part of the language that is
modelled): if a statement is compiled without an error, for any tokens, then the tokens that have been read are
a statement: every operand and every assigned value has the right type, conditions are Boolean, every procedure
gets its parameters, BREAK and CONTINUE are in loops, and nothing is missing. -/
theorem C82_statement_partial (g : Cfg) (n : Nat) (s s' : CS) (accepted : statement g n s = some s')
    (noError : s'.errs = s.errs) (outside : s.brk = 0#16 ∧ s.cont = 0#16) :
    ∃ ts, s.toks = ts ++ s'.toks ∧ Stm checked false ts :=
  ((knownS g n).stmt s s' false accepted ⟨fun h => absurd outside.1 h, fun h => absurd outside.2 h⟩).read noError

/-- C82 (partial, as above): the statements of a block, from BEGIN to END. -/
theorem C82_block_partial (g : Cfg) (n : Nat) (s s' : CS) (begins : s.tok = .begin_)
    (accepted : compound g n s = some s')
    (noError : s'.errs = s.errs) (outside : s.brk = 0#16 ∧ s.cont = 0#16) :
    ∃ ts, s.toks = ts ++ s'.toks ∧ Stm checked false ts :=
  ((knownS g n).block s s' false accepted begins
    ⟨fun h => absurd outside.1 h, fun h => absurd outside.2 h⟩).read noError

/-- `while a < 3 do begin a := a + 1; if b then break end`, with an integer variable `a` and a Boolean variable
`b`. -/
def sampleLoop : List Tk := [.while_, .var ⟨.int, 0, 4⟩, .lt, .int 3#32, .do_, .begin_, .var ⟨.int, 0, 4⟩, .assign,
  .var ⟨.int, 0, 4⟩, .plus, .int 1#32, .semi, .if_, .var ⟨.bool, 0, 6⟩, .then_, .break_, .end_]

def sampleCfg : Cfg := ⟨0, fun _ => (0, 0), 0⟩

/-- The number of errors found in a statement, and what is left. -/
def errors (ts : List Tk) : Option (Nat × List Tk) :=
  (statement sampleCfg 40 (start ts)).map fun s => (s.errs, s.toks)

/-- The type of an expression where the compiler wants one of the type `find`, the number of errors found, and
what is left. -/
def exprErrors (find : ET) (ts : List Tk) : Option (ET × Nat × List Tk) :=
  (expression sampleCfg 40 find (start ts)).map fun p => (p.1, p.2.errs, p.2.toks)

/-- The loop is accepted, without errors. -/
example : errors (sampleLoop ++ [.period]) = some (0, [.period]) := by decide +kernel

/-- Errors that are noticed: a sum with a Boolean, an assignment of the wrong type, a condition that is not
Boolean, BREAK outside of a loop, a missing parenthesis, a missing THEN. -/
example :
    (errors [.var ⟨.int, 0, 4⟩, .assign, .int 1#32, .plus, .bool 0#32, .semi]).map (·.1) = some 1 ∧
    (errors [.var ⟨.int, 0, 4⟩, .assign, .bool 0#32, .semi]).map (·.1) = some 1 ∧
    (errors [.while_, .int 1#32, .do_, .semi]).map (·.1) = some 1 ∧
    (errors [.break_, .semi]).map (·.1) = some 1 ∧
    (errors [.var ⟨.int, 0, 4⟩, .assign, .lparen, .int 1#32, .semi]).map (·.1) = some 1 ∧
    (errors [.if_, .bool 0#32, .var ⟨.int, 0, 4⟩, .assign, .int 1#32, .semi]).map (·.1) = some 1 := by decide +kernel

/-! ### Rules that are not checked -/

/-- Constants and some operators. -/
def Few : Tk → Prop
  | .int _ | .bool _ | .char _ | .plus | .mul | .lt => True
  | _ => False

/-- What expressions of these tokens look like. -/
def Looks (l : Lvl) (ts : List Tk) (k : Kind) : Prop :=
  (∀ t ∈ ts, Few t) →
    (k = .char → ∃ n, ts = [.char n]) ∧
    (Numeric k → ∀ t ∈ ts, (∀ n, t ≠ .char n) ∧ (∀ n, t ≠ .bool n) ∧ t ≠ .lt) ∧
    (k = .bool → l = .expr ∨ ∃ n, ts = [.bool n])

theorem agree_numeric {k k' : Kind} (h : Agree k k') : Numeric k ∧ Numeric k' := by
  rcases h with ⟨a, b⟩ | ⟨a, b⟩
  · exact ⟨Or.inl a, Or.inl b⟩
  · exact ⟨Or.inr a, Or.inr b⟩

theorem numeric_not {k : Kind} (h : Numeric k) : k ≠ .char ∧ k ≠ .bool := by
  constructor <;> rintro rfl <;> exact h.elim id id

theorem looks {l : Lvl} {ts : List Tk} {k : Kind} (h : Form pascal l ts k) : Looks l ts k := by
  have join : ∀ {a b : List Tk} {op : Tk}, (∀ t ∈ a ++ op :: b, Few t) →
      (∀ t ∈ a, Few t) ∧ Few op ∧ (∀ t ∈ b, Few t) := by
    intro a b op h
    exact ⟨fun t ht => h t (by simp [ht]), h op (by simp), fun t ht => h t (by simp [ht])⟩
  refine Form.rec (R := pascal) (motive_1 := fun l ts k _ => Looks l ts k) (motive_2 := fun _ _ _ => True)
    ?int ?bool ?char ?var ?not ?paren ?call ?index ?factor ?mul ?term ?plus ?minus ?add ?simple ?rel ?one ?more h
  case int =>
    intro n k hk _
    have hn : Numeric k := by
      rcases hk with hk | hk
      · exact Or.inr hk
      · exact Or.inl hk.1
    have := numeric_not hn
    exact ⟨fun e => absurd e this.1, fun _ t ht => by simp at ht; subst ht; simp, fun e => absurd e this.2⟩
  case bool =>
    intro n _
    exact ⟨by simp, fun hn => absurd rfl (numeric_not hn).2, fun _ => Or.inr ⟨n, rfl⟩⟩
  case char =>
    intro n _
    exact ⟨fun _ => ⟨n, rfl⟩, fun hn => absurd rfl (numeric_not hn).1, by simp⟩
  case var => intro v h; exact (h _ (List.mem_singleton.mpr rfl)).elim
  case not =>
    intro op ts k hop _ _ _ h
    have := h op (by simp)
    rcases hop with rfl | rfl <;> exact this.elim
  case paren => intro ts k _ _ h; exact (h .lparen (by simp)).elim
  case call =>
    intro f ts k r _ _ _ h
    exact (h .lparen (by simp)).elim
  case index => intro a n ts _ _ _ h; exact (h .lbracket (by simp)).elim
  case factor =>
    intro ts k _ ih h
    obtain ⟨h1, h2, h3⟩ := ih h
    refine ⟨h1, h2, fun e => ?_⟩
    rcases h3 e with h3 | h3
    · cases h3
    · exact Or.inr h3
  case mul =>
    intro ts ts' op k k' _ _ hR ih1 ih2 h
    obtain ⟨ha, ho, hb⟩ := join h
    have : op = .mul := by
      cases op <;> first | rfl | exact (ho.elim) | exact (hR.elim)
    subst this
    obtain ⟨hk, hk'⟩ := agree_numeric (show Agree k k' from hR)
    refine ⟨fun e => absurd e (numeric_not hk).1, fun _ t ht => ?_, fun e => absurd e (numeric_not hk).2⟩
    simp only [List.mem_append, List.mem_cons] at ht
    rcases ht with ht | rfl | ht
    · exact (ih1 ha).2.1 hk t ht
    · simp
    · exact (ih2 hb).2.1 hk' t ht
  case term =>
    intro ts k _ ih h
    obtain ⟨h1, h2, h3⟩ := ih h
    refine ⟨h1, h2, fun e => ?_⟩
    rcases h3 e with h3 | h3
    · cases h3
    · exact Or.inr h3
  case plus =>
    intro ts k _ hk ih h
    obtain ⟨h1, h2, h3⟩ := ih (fun t ht => h t (by simp [ht]))
    have hk : Numeric k := hk
    refine ⟨fun e => absurd e (numeric_not hk).1, fun _ t ht => ?_, fun e => absurd e (numeric_not hk).2⟩
    simp only [List.mem_cons] at ht
    rcases ht with rfl | ht
    · simp
    · exact h2 hk t ht
  case minus => intro ts k _ _ _ h; exact (h .minus (by simp)).elim
  case add =>
    intro ts ts' op k k' _ _ hR ih1 ih2 h
    obtain ⟨ha, ho, hb⟩ := join h
    have : op = .plus := by
      cases op <;> first | rfl | exact (ho.elim) | exact (hR.elim)
    subst this
    obtain ⟨hk, hk'⟩ := agree_numeric (show Agree k k' from hR)
    refine ⟨fun e => absurd e (numeric_not hk).1, fun _ t ht => ?_, fun e => absurd e (numeric_not hk).2⟩
    simp only [List.mem_append, List.mem_cons] at ht
    rcases ht with ht | rfl | ht
    · exact (ih1 ha).2.1 hk t ht
    · simp
    · exact (ih2 hb).2.1 hk' t ht
  case simple =>
    intro ts k _ ih h
    obtain ⟨h1, h2, h3⟩ := ih h
    exact ⟨h1, h2, fun _ => Or.inl rfl⟩
  case rel =>
    intro ts ts' op k k' r _ _ hR _ _ _
    obtain ⟨-, rfl, -⟩ := hR
    exact ⟨by simp, fun hn => absurd rfl (numeric_not hn).2, fun _ => Or.inl rfl⟩
  case one => intros; trivial
  case more => intros; trivial

/-- Violation of C82: the second operand of a product can have any type: `2 * TRUE` is accepted as an integer;
by the rules of Pascal it is no expression of this type. -/
theorem C82_violation_product :
    exprErrors .integer [.int 2#32, .mul, .bool 0xffffffff#32, .semi] = some (.integer, 0, [.semi]) ∧
    ¬ Form pascal .expr [.int 2#32, .mul, .bool 0xffffffff#32] .int := by
  refine ⟨by decide +kernel, fun h => ?_⟩
  have few : ∀ t ∈ [Tk.int 2#32, .mul, .bool 0xffffffff#32], Few t := by
    intro t ht
    simp only [List.mem_cons, List.not_mem_nil, or_false] at ht
    rcases ht with rfl | rfl | rfl <;> trivial
  have := (looks h few).2.1 (Or.inl trivial) (.bool 0xffffffff#32) (by simp)
  exact this.2.1 _ rfl

/-- Violation of C82: a character can have a plus sign. -/
theorem C82_violation_sign :
    exprErrors .char [.plus, .char 65#32, .semi] = some (.char, 0, [.semi]) ∧
    ¬ Form pascal .expr [.plus, .char 65#32] .char := by
  refine ⟨by decide +kernel, fun h => ?_⟩
  have few : ∀ t ∈ [Tk.plus, .char 65#32], Few t := by
    intro t ht
    simp only [List.mem_cons, List.not_mem_nil, or_false] at ht
    rcases ht with rfl | rfl <;> trivial
  obtain ⟨n, hn⟩ := (looks h few).1 rfl
  cases hn

/-- Violation of C82: `'A' < 'B'` is accepted where a character is wanted. -/
theorem C82_violation_order :
    exprErrors .char [.char 65#32, .lt, .char 66#32, .semi] = some (.char, 0, [.semi]) ∧
    ¬ Form pascal .expr [.char 65#32, .lt, .char 66#32] .char := by
  refine ⟨by decide +kernel, fun h => ?_⟩
  have few : ∀ t ∈ [Tk.char 65#32, .lt, .char 66#32], Few t := by
    intro t ht
    simp only [List.mem_cons, List.not_mem_nil, or_false] at ht
    rcases ht with rfl | rfl | rfl <;> trivial
  obtain ⟨n, hn⟩ := (looks h few).1 rfl
  cases hn

/-- Files are not part of expressions. -/
theorem no_file {l : Lvl} {ts : List Tk} {k : Kind} (h : Form pascal l ts k) (off : Nat) : Tk.file off ∉ ts := by
  have op : ∀ {P : Tk → Prop}, (¬ P (.file off)) → ∀ {t}, P t → Tk.file off ≠ t := by
    intro P hP t ht e
    subst e
    exact hP ht
  refine Form.rec (R := pascal) (motive_1 := fun _ ts _ _ => Tk.file off ∉ ts)
    (motive_2 := fun _ ts _ => Tk.file off ∉ ts)
    ?int ?bool ?char ?var ?not ?paren ?call ?index ?factor ?mul ?term ?plus ?minus ?add ?simple ?rel ?one ?more h
  case int => intros; simp
  case bool => intros; simp
  case char => intros; simp
  case var => intros; simp
  case not =>
    intro o ts k ho _ _ ih
    simp only [List.mem_cons, not_or]
    exact ⟨op (P := fun t => t = .not_ ∨ t = .tilde) (by simp) ho, ih⟩
  case paren => intro ts k _ ih; simp [ih]
  case call =>
    intro f ts k r _ _ ih
    simp only [List.mem_cons, List.mem_append, not_or]
    exact ⟨by cases f <;> simp [Pas.Src.Fn.tk], by simp, ih, by simp⟩
  case index => intro a n ts _ _ ih; simp [ih]
  case factor => intro ts k _ ih; exact ih
  case mul =>
    intro ts ts' o k k' _ _ hR ih1 ih2
    simp only [List.mem_cons, List.mem_append, not_or]
    exact ⟨ih1, op (P := fun t => pascal.mul t k k') (fun h => h) hR, ih2⟩
  case term => intro ts k _ ih; exact ih
  case plus => intro ts k _ _ ih; simp [ih]
  case minus => intro ts k _ _ ih; simp [ih]
  case add =>
    intro ts ts' o k k' _ _ hR ih1 ih2
    simp only [List.mem_cons, List.mem_append, not_or]
    exact ⟨ih1, op (P := fun t => AddTypes t k k') (fun h => h) hR, ih2⟩
  case simple => intro ts k _ ih; exact ih
  case rel =>
    intro ts ts' o k k' r _ _ hR ih1 ih2
    simp only [List.mem_cons, List.mem_append, not_or]
    exact ⟨ih1, op (P := IsRel) (by simp [IsRel]) hR.1, ih2⟩
  case one => intro ts _ ih; exact ih
  case more => intro n ts ts' _ _ ih1 ih2; simp [ih1, ih2]

theorem items_file {ts : List Tk} (h : Items pascal ts) (off : Nat) : Tk.file off ∉ ts := by
  have item : ∀ {ts : List Tk}, Item pascal ts → Tk.file off ∉ ts := by
    intro ts h
    cases h with
    | str => simp
    | value hf _ hw =>
      have hf := no_file hf off
      have : ∀ {ws : List Tk}, Width pascal ws → Tk.file off ∉ ws := by
        intro ws hw
        cases hw with
        | none => simp
        | one h1 => simp [no_file h1 off]
        | two h1 h2 => simp [no_file h1 off, no_file h2 off]
      simp [hf, this hw]
  induction h with
  | one h => exact item h
  | more h _ ih => simp [item h, ih]

/-- No colon among the variables that are read. -/
theorem targets_colon {ts : List Tk} (h : Targets pascal ts) : Tk.colon ∉ ts := by
  induction h with
  | one => simp
  | more hv hs _ ih =>
    have hs : _ = Tk.comma := hs
    subst hs
    simp [ih]

theorem read_shape {R : Rules} {b : Bool} {ts rest : List Tk} (h : Stm R b ts) (e : ts = .read_ :: .lparen :: rest) :
    ∃ bs vs, rest = bs ++ (vs ++ [.rparen]) ∧ R.before bs ∧ Targets R vs := by
  cases h <;> cases e
  exact ⟨_, _, rfl, by assumption, by assumption⟩

theorem write_shape {R : Rules} {b : Bool} {ts rest : List Tk} (h : Stm R b ts) (e : ts = .write_ :: .lparen :: rest) :
    ∃ bs is, rest = bs ++ (is ++ [.rparen]) ∧ R.before bs ∧ Items R is := by
  cases h <;> cases e
  exact ⟨_, _, rfl, by assumption, by assumption⟩

/-- An integer variable. -/
def aVar : Tk := .var ⟨.int, 0, 4⟩

/-- Violation of C82: `read(a : a)` is accepted: a colon is as good as a comma. -/
theorem C82_violation_read :
    errors [.read_, .lparen, aVar, .colon, aVar, .rparen, .semi] = some (0, [.semi]) ∧
    ∀ l, ¬ Stm pascal l [.read_, .lparen, aVar, .colon, aVar, .rparen] := by
  refine ⟨by decide +kernel, fun l h => ?_⟩
  obtain ⟨bs, vs, e, hb, ht⟩ := read_shape h rfl
  have hm : Tk.colon ∈ bs ++ (vs ++ [.rparen]) := by rw [← e]; simp
  simp only [List.mem_append, List.mem_singleton] at hm
  rcases hm with hm | hm | hm
  · rcases hb with rfl | ⟨off, rfl⟩ <;> simp at hm
  · exact targets_colon ht hm
  · cases hm

/-- Violation of C82: `read(, a)` is accepted. -/
theorem C82_violation_comma :
    errors [.read_, .lparen, .comma, aVar, .rparen, .semi] = some (0, [.semi]) ∧
    ∀ l, ¬ Stm pascal l [.read_, .lparen, .comma, aVar, .rparen] := by
  refine ⟨by decide +kernel, fun l h => ?_⟩
  obtain ⟨bs, vs, e, hb, ht⟩ := read_shape h rfl
  rcases hb with rfl | ⟨off, rfl⟩
  · cases ht <;> cases e
  · cases e

/-- Violation of C82: the file and what is written need not be separated: `write(OUTPUT 5)`. -/
theorem C82_violation_file :
    errors [.write_, .lparen, .file 2, .int 5#32, .rparen, .semi] = some (0, [.semi]) ∧
    ∀ l, ¬ Stm pascal l [.write_, .lparen, .file 2, .int 5#32, .rparen] := by
  refine ⟨by decide +kernel, fun l h => ?_⟩
  obtain ⟨bs, is, e, hb, hi⟩ := write_shape h rfl
  rcases hb with rfl | ⟨off, rfl⟩
  · have hm : Tk.file 2 ∈ is ++ [.rparen] := by
      have : is ++ [Tk.rparen] = [.file 2, .int 5#32, .rparen] := e.symm
      rw [this]
      simp
    simp only [List.mem_append, List.mem_singleton] at hm
    rcases hm with hm | hm
    · exact items_file hi 2 hm
    · cases hm
  · cases e

/-- Violation of C82: the constants of CASE need not have the type of the value: with a character, `case 'A' of
5 : end`. -/
theorem C82_violation_case :
    errors [.case_, .char 65#32, .of_, .int 5#32, .colon, .end_, .semi] = some (0, [.semi]) ∧
    ¬ Consts pascal .char [.int 5#32] := by
  refine ⟨by decide +kernel, fun h => ?_⟩
  cases h with
  | one hc hr =>
    cases hc
    rcases hr with hr | ⟨-, hr⟩ | ⟨hr, -⟩
    · rcases hr with ⟨hr, -⟩ | ⟨hr, -⟩ <;> exact hr.elim
    · cases hr
    · cases hr

end Pas.Accept
