import Verif.Props.Procedures
import Verif.Spec.Read

/-! Property C79: programs that read their input. -/
namespace Pas.Src
open Pas.Spec Pas.Comp Pas.Link

/-! ### The statement -/

/-- C79 (partial: integers and characters from the standard input; `Reads1` says which inputs are excluded):
the compiler accepts every READ and READLN of integer and character variables, and the code, executed in a
machine whose standard input is `i`, gives the variables the values that are there, from the first to the
last one, and leaves the rest of the input: for READLN from the next line on.  The stack is as before, and
nothing else but the variables and the position in the standard input changes. -/
theorem C79_read_partial (g : Cfg) (lib : Lib) (Γ : Env) (hΓ : Γ.Ok) (hg : g.level = Γ.level)
    (ln file : Bool) (x : Variable) (xs : List Variable)
    (vars : ∀ y ∈ x :: xs, Γ.vars y ∧ (y.ty = .num .integer ∨ y.ty = .char))
    (rest : List Tk) (cs : CS) (toks : cs.toks = (S.read ln file x xs).toks ++ rest)
    (follows : Follows rest)
    (labels : cs.label.toNat + (S.read ln file x xs).toks.length ≤ 65535) (adj : cs.adj = 0) :
    ∃ (N : Nat) (c : List OpType) (L : Word) (r : List Byte),
      (∀ n, N ≤ n → statement g n cs = some { cs with
        toks := rest
        out := cs.out ++ c
        label := L
        ro := cs.ro ++ r }) ∧
      ∀ (σ τ : Store) (i i' left : Inp) (s : VM) (b : Nat) (ro : List Byte) (addr : Nat → Word)
        (p : List OpType) (k : Nat), ReadVars (x :: xs) ⟨σ, none, some i⟩ ⟨τ, none, some i'⟩ → Left ln i' left →
        Γ.In s b → Γ.Holds s.mem σ → Γ.Input lib s b i →
        cs.ro ++ r <+: ro → s.sp.toNat % 2 = 0 → b ≤ s.sp.toNat / 2 → RoomFor s 3 →
        At p k c → Uniq p →
        ∃ t, PSteps lib addr p (k, s) (k + c.length, t) ∧ t.sp = s.sp ∧ Γ.Holds t.mem τ ∧
          Γ.Input lib t b left ∧ (∀ f, f ≠ .stdout → t.io.files f = s.io.files f) ∧ Γ.Keeps true s t := by
  obtain ⟨N, c, L, r, h1, -, -, -, h2⟩ := C49_statement_partial g lib Γ hΓ hg (.read ln file x xs) rest cs
    vars toks follows (fun h => by cases h) labels (by simp [S.need]) adj
  refine ⟨N, c, L, r, h1, fun σ τ i i' left s b ro addr p k hread hleft hin hh hinp hro hev hb hroom hat hu => ?_⟩
  have hx : Exec noCalls (.stmt (.read ln file x xs)) ⟨σ, none, some i⟩ .normal ⟨τ, none, some left⟩ := by
    cases ln with
    | false => cases (show left = i' from hleft); exact .read hread
    | true =>
      obtain ⟨line, l1, l2, l3⟩ := hleft
      obtain ⟨b', r'⟩ := i'
      obtain ⟨lb, lr⟩ := left
      cases l3
      exact .readln hread (.mk (σ := ⟨τ, none, some ⟨b', r'⟩⟩) (line := line) (more := lr) (by rw [← l2]) l1)
  obtain ⟨-, t, h3, h4, h5, h6⟩ := h2 _ _ .normal s b ro addr p k hx hin
    ⟨hh, (fun _ e => by cases e), fun _ e => by cases e; exact hinp⟩ hro hev hb hroom hat hu
  exact ⟨t, h3, h4, h5.holds, h5.input _ rfl, h6.files, h6⟩

/-! ### Numbers in lines -/

theorem numeral_chars {num : List Byte} {i : Int} (h : Numeral num i) : 10#8 ∉ num ∧ 0#8 ∉ num ∧ num ≠ [] := by
  have key : ∀ {d : List Byte} {n : Nat}, Digits d n → ∀ c : Byte, c.toNat < 48 → c ∉ d := by
    intro d n h c hc hm
    have := h.2.1 c hm
    omega
  cases h with
  | plain h => exact ⟨key h _ (by decide), key h _ (by decide), h.1⟩
  | plus h =>
    exact ⟨fun e => (by
      rcases List.mem_cons.1 e with e | e
      · cases e
      · exact key h _ (by decide) e), fun e => (by
      rcases List.mem_cons.1 e with e | e
      · cases e
      · exact key h _ (by decide) e), by simp⟩
  | minus h =>
    exact ⟨fun e => (by
      rcases List.mem_cons.1 e with e | e
      · cases e
      · exact key h _ (by decide) e), fun e => (by
      rcases List.mem_cons.1 e with e | e
      · cases e
      · exact key h _ (by decide) e), by simp⟩

/-- The first number of a column is read. -/
theorem column_first {text : List Byte} {i : Int} {is : List Int} {more : List Byte} (h : Column text (i :: is) more)
    (begun : Bool) {skip : List Byte} (hs : ∀ b ∈ skip, BlankChar b) (hs' : 10#8 ∉ skip) :
    ∃ trail rest, (∀ b ∈ trail, BlankChar b) ∧ 10#8 ∉ trail ∧ Column rest is more ∧
      Reads1 (.num .integer) ⟨begun, (if begun then skip ++ [10#8] else []) ++ text⟩ (.num .integer i)
        ⟨true, trail ++ 10#8 :: rest⟩ := by
  cases h with
  | @cons blanks num trail rest _ _ _ hb hn hnum lo hi hlen hrest =>
    simp only [List.mem_append, not_or] at hb hn
    have hz : ∀ l : List Byte, (∀ b ∈ l, BlankChar b) → 0#8 ∉ l := by
      intro l hl h
      have := hl _ h
      revert this; unfold BlankChar; decide
    obtain ⟨c1, c2, c3⟩ := numeral_chars hnum
    refine ⟨trail, rest, fun b h => hb b (.inr h), hn.2, hrest, ?_⟩
    refine .int hs hs' (fun b h => hb b (.inl h)) hnum lo hi ?_ ?_ ?_ hlen
    · intro c hc
      have := hb c (.inr (List.mem_of_mem_head? hc))
      unfold BlankChar at this
      omega
    · simp only [List.mem_append, not_or]; exact ⟨⟨hn.1, c1⟩, hn.2⟩
    · simp only [List.mem_append, not_or]
      exact ⟨⟨hz _ fun b h => hb b (.inl h), c2⟩, hz _ fun b h => hb b (.inr h)⟩

/-- The store after the values have been given to the variables. -/
def Store.setAll (σ : Store) : List Variable → List Int → Store
  | x :: xs, i :: is => (σ.set x (.num .integer i)).setAll xs is
  | _, _ => σ

theorem column_vars : ∀ (xs : List Variable) (is : List Int) (σ : Store) (out : Option (List Byte)) (begun : Bool)
    {skip text more : List Byte}, (∀ b ∈ skip, BlankChar b) → 10#8 ∉ skip → xs.length = is.length →
    (∀ x ∈ xs, x.ty = .num .integer) → Column text is more →
    ∃ i', ReadVars xs ⟨σ, out, some ⟨begun, (if begun then skip ++ [10#8] else []) ++ text⟩⟩
        ⟨σ.setAll xs is, out, some i'⟩ ∧
      (xs ≠ [] → ∃ trail, (∀ b ∈ trail, BlankChar b) ∧ 10#8 ∉ trail ∧ i' = ⟨true, trail ++ 10#8 :: more⟩)
  | [], [], σ, out, begun, skip, text, more, _, _, _, _, _ => ⟨_, .nil, fun h => (h rfl).elim⟩
  | x :: xs, i :: is, σ, out, begun, skip, text, more, hs, hs', hl, ht, hc => by
    obtain ⟨trail, rest, t1, t2, t3, t4⟩ := column_first hc begun hs hs'
    obtain ⟨i', h1, h2⟩ := column_vars xs is (σ.set x (.num .integer i)) out true (skip := trail) (text := rest)
      (more := more) t1 t2 (by simpa using hl) (fun y hy => ht y (List.mem_cons_of_mem _ hy)) t3
    refine ⟨i', .cons rfl (by rw [ht x (List.mem_cons_self ..)]; exact t4) ?_, fun _ => ?_⟩
    · show ReadVars xs ⟨σ.set x (.num .integer i), out, some _⟩ _
      simpa [Store.setAll] using h1
    · by_cases hx : xs = []
      · subst hx
        cases is with
        | nil =>
          cases t3
          cases h1
          exact ⟨trail, t1, t2, by simp⟩
        | cons _ _ => simp at hl
      · exact h2 hx

theorem setAll_other {xs : List Variable} {is : List Int} {σ : Store} {y : Variable} (h : y ∉ xs) :
    σ.setAll xs is y = σ y := by
  induction xs generalizing is σ with
  | nil => cases is <;> rfl
  | cons x xs ih =>
    cases is with
    | nil => rfl
    | cons i is =>
      simp only [List.mem_cons, not_or] at h
      simp only [Store.setAll, ih h.2, Store.set, if_neg h.1]

theorem setAll_same {xs : List Variable} {is : List Int} {σ : Store} (h : xs.Nodup) {j : Nat} {y : Variable} {i : Int}
    (hy : xs[j]? = some y) (hi : is[j]? = some i) : σ.setAll xs is y = some (.num .integer i) := by
  induction xs generalizing is σ j with
  | nil => simp at hy
  | cons x xs ih =>
    cases is with
    | nil => simp at hi
    | cons i' is =>
      rw [List.nodup_cons] at h
      cases j with
      | zero =>
        simp at hy hi; subst hy hi
        simp only [Store.setAll, setAll_other h.1, Store.set, if_pos]
      | succ j => exact ih h.2 (by simpa using hy) (by simpa using hi)

/-- C79 (partial, as `C79_read_partial`): `readln(x1, …, xn)`, with different integer variables, in a machine
whose standard input has a number in each of the next `n` lines.  After it every variable has the number of its
line, no other variable has changed, and the input goes on behind these lines. -/
theorem C79_numbers_partial (g : Cfg) (lib : Lib) (Γ : Env) (hΓ : Γ.Ok) (hg : g.level = Γ.level)
    (file : Bool) (x : Variable) (xs : List Variable) (diff : (x :: xs).Nodup)
    (vars : ∀ y ∈ x :: xs, Γ.vars y ∧ y.ty = .num .integer)
    (rest : List Tk) (cs : CS) (toks : cs.toks = (S.read true file x xs).toks ++ rest)
    (follows : Follows rest)
    (labels : cs.label.toNat + (S.read true file x xs).toks.length ≤ 65535) (adj : cs.adj = 0) :
    ∃ (N : Nat) (c : List OpType) (L : Word) (r : List Byte),
      (∀ n, N ≤ n → statement g n cs = some { cs with
        toks := rest
        out := cs.out ++ c
        label := L
        ro := cs.ro ++ r }) ∧
      ∀ (σ : Store) (text more : List Byte) (is : List Int) (s : VM) (b : Nat) (ro : List Byte)
        (addr : Nat → Word) (p : List OpType) (k : Nat),
        Column text is more → is.length = xs.length + 1 →
        Γ.In s b → Γ.Holds s.mem σ → Γ.Input lib s b ⟨false, text⟩ →
        cs.ro ++ r <+: ro → s.sp.toNat % 2 = 0 → b ≤ s.sp.toNat / 2 → RoomFor s 3 →
        At p k c → Uniq p →
        ∃ t τ, PSteps lib addr p (k, s) (k + c.length, t) ∧ t.sp = s.sp ∧ Γ.Holds t.mem τ ∧
          (∀ (j : Nat) y i, (x :: xs)[j]? = some y → is[j]? = some i → τ y = some (.num .integer i)) ∧
          (∀ y, y ∉ x :: xs → τ y = σ y) ∧ Γ.Input lib t b ⟨false, more⟩ := by
  obtain ⟨N, c, L, r, h1, h2⟩ := C79_read_partial g lib Γ hΓ hg true file x xs
    (fun y hy => ⟨(vars y hy).1, .inl (vars y hy).2⟩) rest cs toks follows labels adj
  refine ⟨N, c, L, r, h1, fun σ text more is s b ro addr p k hc hlen hin hh hinp hro hev hb hroom hat hu => ?_⟩
  obtain ⟨i', r1, r2⟩ := column_vars (x :: xs) is σ none false (skip := []) (by simp) (by simp) (by simp [hlen])
    (fun y hy => (vars y hy).2) hc
  obtain ⟨trail, -, t1, rfl⟩ := r2 (by simp)
  obtain ⟨t, h3, h4, h5, h6, -⟩ := h2 σ _ ⟨false, text⟩ _ ⟨false, more⟩ s b ro addr p k (by simpa using r1) ⟨trail, t1, rfl, rfl⟩
    hin hh hinp hro hev hb hroom hat hu
  exact ⟨t, _, h3, h4, h5, fun j y i hy hi => setAll_same diff hy hi, fun y hy => setAll_other hy, h6⟩

/-! ### A program -/

/-- The variables of the example. -/
def tN : Variable := ⟨.num .integer, 0, 6⟩
@[inherit_doc tN] def tT : Variable := ⟨.num .integer, 0, 4⟩

/-- `read(n); t := t + n` -/
def totalLoop : S .list := .cons (.read false false tN []) (.one (.assign tT (eSum tT tN)))

/-- `n = 0` -/
def totalUntil : E .expr := .rel (.term none (.factor (.var tN))) .eq (.term none (.factor (.int 0)))

/-- `t := 0; repeat read(n); t := t + n until n = 0; writeln('sum ', t)` -/
def totalBody : S .list :=
  .cons (.assign tT (eInt 0))
  (.cons (.repeat_ totalLoop totalUntil)
  (.one (.write true false (.str [115, 117, 109, 32]) [.val (eVar tT) none])))

/-- `program total (input, output); var n, t : integer; begin … end.` with the statements above. -/
def totalProgram : Source where
  name := [116, 111, 116, 97, 108]
  files := [[105, 110, 112, 117, 116], [111, 117, 116, 112, 117, 116]]
  groups := [⟨[110], [[116]], [105, 110, 116, 101, 103, 101, 114], .num .integer, none, none⟩]
  body := [.name [116], .tk .assign, .tk (.int 0), .tk .semi,
    .tk .repeat_, .tk .read_, .tk .lparen, .name [110], .tk .rparen, .tk .semi,
    .name [116], .tk .assign, .name [116], .tk .plus, .name [110],
    .tk .until_, .name [110], .tk .eq, .tk (.int 0), .tk .semi,
    .tk .writeln_, .tk .lparen, .tk (.str [115, 117, 109, 32]), .tk .comma, .name [116], .tk .rparen]

theorem total_ok : totalProgram.Ok totalBody := by
  let sc : Scope := [] ++ ([] ++ locals 0 totalProgram.consts totalProgram.groups ++ Dcl.heads 0 1 .nil)
  have hd : sc.Pairwise fun a b => ¬ SameName a.1 b.1 := by decide
  have n : Scope.vars sc tN := ⟨([110], .var _), by decide, List.mem_singleton.2 rfl⟩
  have t : Scope.vars sc tT := ⟨([116], .var _), by decide, List.mem_singleton.2 rfl⟩
  have sn : Spells sc (.name [110]) tN.tk := .var (means_of_mem hd (n := [110]) (by decide) (by decide))
  have st : Spells sc (.name [116]) tT.tk := .var (means_of_mem hd (n := [116]) (by decide) (by decide))
  refine ⟨?_, ?_, ⟨?_, ?_, trivial, by decide, ?_, no_bounds (by decide), ?_, ?_, ?_⟩, trivial⟩
  · exact ⟨by unfold Plain; decide +kernel, by decide +kernel⟩
  · decide
  · unfold New Plain; decide +kernel
  · exact hd
  · decide
  · decide
  · repeat' apply pointwise_cons
    all_goals first
      | exact pointwise_nil
      | exact .other (by simp) (by simp) (by simp) (by simp) (by simp)
      | exact sn
      | exact st
  · refine ⟨⟨t, ?_, by decide⟩, ⟨⟨?_, ⟨t, ?_, by decide⟩⟩, ?_⟩, ?_⟩
    · intro y hy; simp [E.vars, eInt] at hy
    · intro y hy; rcases List.mem_singleton.1 hy with rfl; exact ⟨n, .inl rfl⟩
    · intro y hy; simp [E.vars, eSum] at hy; rcases hy with rfl | rfl <;> assumption
    · exact ⟨fun y hy => by simp [E.vars, totalUntil] at hy; subst hy; exact n, by decide⟩
    · intro j hj
      rcases List.mem_cons.1 hj with rfl | hj
      · exact ⟨by decide, by decide⟩
      · rcases List.mem_singleton.1 hj with rfl
        exact ⟨⟨.num .integer, ⟨fun y hy => by simp [E.vars, eVar] at hy; subst hy; exact t, by decide⟩, by decide⟩, fun u hu => by cases hu⟩

/-- The loop adds up the numbers. -/
theorem total_loop (P : Effects) : ∀ (is : List Int) (σ : Store) (out : Option (List Byte)) (begun : Bool)
    (skip text more : List Byte) (a : Int), (∀ b ∈ skip, BlankChar b) → 10#8 ∉ skip →
    Column text (is ++ [0]) more → (∀ i ∈ is, i ≠ 0) → σ tT = some (.num .integer a) → Int.bmod a 65536 = a →
    ∃ τ left, Exec P (.stmt (.repeat_ totalLoop totalUntil))
        ⟨σ, out, some ⟨begun, (if begun then skip ++ [10#8] else []) ++ text⟩⟩ .normal ⟨τ, out, left⟩ ∧
      τ tT = some (.num .integer (Int.bmod (a + is.sum) 65536)) := by
  intro is
  have round : ∀ (i : Int) (is : List Int) (σ : Store) (out : Option (List Byte)) (begun : Bool)
      (skip text more : List Byte) (a : Int), (∀ b ∈ skip, BlankChar b) → 10#8 ∉ skip →
      Column text (i :: is) more → σ tT = some (.num .integer a) → ∃ τ trail rest,
      Exec P (.list totalLoop) ⟨σ, out, some ⟨begun, (if begun then skip ++ [10#8] else []) ++ text⟩⟩ .normal
        ⟨τ, out, some ⟨true, trail ++ 10#8 :: rest⟩⟩ ∧
      (∀ b ∈ trail, BlankChar b) ∧ 10#8 ∉ trail ∧ Column rest is more ∧
      τ tT = some (.num .integer (Int.bmod (a + i) 65536)) ∧ τ tN = some (.num .integer i) := by
    intro i is σ out begun skip text more a hs hs' hc hT
    obtain ⟨trail, rest, t1, t2, t3, t4⟩ := column_first hc begun hs hs'
    refine ⟨_, trail, rest, .cons (.read (.cons rfl t4 .nil)) (.one (.assign (v := .num .integer (Int.bmod (a + i) 65536)) ?_)),
      t1, t2, t3, rfl, rfl⟩
    have h1 : (State.set ⟨σ, out, some ⟨begun, (if begun then skip ++ [10#8] else []) ++ text⟩⟩ tN
      (.num .integer i)).store tT = some (.num .integer a) := hT
    have h2 : (State.set ⟨σ, out, some ⟨begun, (if begun then skip ++ [10#8] else []) ++ text⟩⟩ tN
      (.num .integer i)).store tN = some (.num .integer i) := rfl
    simp only [E.eval, eSum, h1, h2]
    rfl
  have test : ∀ (τ : Store) (i : Int), τ tN = some (.num .integer i) →
      totalUntil.eval τ (.a .bool) = some (.bool (decide (Int.bmod i 65536 = 0))) := by
    intro τ i h
    simp only [totalUntil, E.eval, h]
    rfl
  induction is with
  | nil =>
    intro σ out begun skip text more a hs hs' hc _ hT ha
    obtain ⟨τ, trail, rest, h1, -, -, -, h2, h3⟩ := round 0 [] σ out begun skip text more a hs hs' hc hT
    exact ⟨τ, _, .repeatEnd h1 (by simp) (by rw [test _ _ h3]; rfl), by simpa using h2⟩
  | cons i is ih =>
    intro σ out begun skip text more a hs hs' hc hne hT ha
    obtain ⟨τ, trail, rest, h1, t1, t2, t3, h2, h3⟩ := round i (is ++ [0]) σ out begun skip text more a hs hs' (by simpa using hc) hT
    obtain ⟨υ, left, e1, e2⟩ := ih τ out true trail rest more _ t1 t2 t3 (fun j hj => hne j (List.mem_cons_of_mem _ hj)) h2
      (Int.bmod_bmod ..)
    refine ⟨υ, left, .repeatNext h1 (by simp) ?_ (by simpa using e1), ?_⟩
    · rw [test _ _ h3]
      have hi : i ≠ 0 := hne i (List.mem_cons_self ..)
      have : Int.bmod i 65536 ≠ 0 := by
        cases hc with
        | cons _ _ _ lo hi' =>
          intro h
          rw [Int.bmod_eq_of_le (by omega) (by omega)] at h
          exact hi h
      rw [decide_eq_false this]
    · rw [e2, Int.bmod_add_bmod, List.sum_cons, Int.add_assoc]

/-- The meaning of the program: it writes the sum of the numbers before the first 0. -/
theorem total_exec (old stdin more : List Byte) (is : List Int) (hc : Column stdin (is ++ [0]) more) (hne : ∀ i ∈ is, i ≠ 0)
    (lo : -32768 ≤ is.sum) (hi : is.sum ≤ 32767) (digits : List Byte) (hd : DecimalInt digits is.sum) :
    ∃ τ left, Exec (totalProgram.calls 0) (.list totalBody) ⟨fun _ => none, some old, some ⟨false, stdin⟩⟩ .normal
      ⟨τ, some (old ++ [115, 117, 109, 32] ++ digits ++ [10]), left⟩ := by
  obtain ⟨τ, left, h1, h2⟩ := total_loop (totalProgram.calls 0) is (Store.set (fun _ => none) tT (.num .integer 0))
    (some old) false [] stdin more 0 (by simp) (by simp) hc hne rfl rfl
  rw [Int.zero_add, Int.bmod_eq_of_le (by omega) (by omega)] at h2
  have ht : Texts τ [.str [115, 117, 109, 32], .val (eVar tT) none] ([115, 117, 109, 32] ++ (digits ++ [])) := by
    refine .cons rfl (.cons ⟨.num .integer is.sum, 0, ?_, rfl, digits, hd, 0, by simp, by simp⟩ .nil)
    simp only [E.eval, eVar, h2]
  have : Exec (totalProgram.calls 0) (.list totalBody) ⟨fun _ => none, some old, some ⟨false, stdin⟩⟩ .normal _ :=
    .cons (.assign (v := .num .integer 0) rfl) (.cons h1 (.one (.write rfl ht)))
  exact ⟨_, _, by simpa using this⟩

/-- The text of the program:

    program total(input, output);
    var n, t : integer; { number, sum }
    begin
      t := 0;
      repeat read(n); t := t + n until n = 0;
      writeln('sum ', t)
    end.
-/
def totalText : List Byte :=
  [112, 114, 111, 103, 114, 97, 109, 32, 116, 111, 116, 97, 108, 40, 105, 110, 112, 117, 116, 44, 32, 111,
   117, 116, 112, 117, 116, 41, 59, 10, 118, 97, 114, 32, 110, 44, 32, 116, 32, 58, 32, 105, 110, 116, 101,
   103, 101, 114, 59, 32, 123, 32, 110, 117, 109, 98, 101, 114, 44, 32, 115, 117, 109, 32, 125, 10, 98, 101,
   103, 105, 110, 10, 32, 32, 116, 32, 58, 61, 32, 48, 59, 10, 32, 32, 114, 101, 112, 101, 97, 116, 32, 114,
   101, 97, 100, 40, 110, 41, 59, 32, 116, 32, 58, 61, 32, 116, 32, 43, 32, 110, 32, 117, 110, 116, 105,
   108, 32, 110, 32, 61, 32, 48, 59, 10, 32, 32, 119, 114, 105, 116, 101, 108, 110, 40, 39, 115, 117, 109,
   32, 39, 44, 32, 116, 41, 10, 101, 110, 100, 46, 10]

set_option maxRecDepth 20000 in
theorem totalText_written : Written totalText (.tk (.other 0x9d) :: totalProgram.toks) := by
  refine .cons (l := []) (w := [112, 114, 111, 103, 114, 97, 109]) (.nil) (.word (k := [80, 82, 79, 71, 82, 65, 77]) (by simp [words]) (by decide)) (by decide) (by decide) ?_
  refine .cons (l := [32]) (w := [116, 111, 116, 97, 108]) (.blank _ (by decide) (.nil)) (.name ⟨by decide, _, _, rfl, by decide⟩ (by decide +kernel) (by decide +kernel)) (by decide) (by decide) ?_
  refine .cons (l := []) (w := [40]) (.nil) (.symbol (by simp [symbols]; rfl)) (by decide) (by decide) ?_
  refine .cons (l := []) (w := [105, 110, 112, 117, 116]) (.nil) (.name ⟨by decide, _, _, rfl, by decide⟩ (by decide +kernel) (by decide +kernel)) (by decide) (by decide) ?_
  refine .cons (l := []) (w := [44]) (.nil) (.symbol (by simp [symbols]; rfl)) (by decide) (by decide) ?_
  refine .cons (l := [32]) (w := [111, 117, 116, 112, 117, 116]) (.blank _ (by decide) (.nil)) (.name ⟨by decide, _, _, rfl, by decide⟩ (by decide +kernel) (by decide +kernel)) (by decide) (by decide) ?_
  refine .cons (l := []) (w := [41]) (.nil) (.symbol (by simp [symbols]; rfl)) (by decide) (by decide) ?_
  refine .cons (l := []) (w := [59]) (.nil) (.symbol (by simp [symbols]; rfl)) (by decide) (by decide) ?_
  refine .cons (l := [10]) (w := [118, 97, 114]) (.blank _ (by decide) (.nil)) (.word (k := [86, 65, 82]) (by simp [words]) (by decide)) (by decide) (by decide) ?_
  refine .cons (l := [32]) (w := [110]) (.blank _ (by decide) (.nil)) (.name ⟨by decide, _, _, rfl, by decide⟩ (by decide +kernel) (by decide +kernel)) (by decide) (by decide) ?_
  refine .cons (l := []) (w := [44]) (.nil) (.symbol (by simp [symbols]; rfl)) (by decide) (by decide) ?_
  refine .cons (l := [32]) (w := [116]) (.blank _ (by decide) (.nil)) (.name ⟨by decide, _, _, rfl, by decide⟩ (by decide +kernel) (by decide +kernel)) (by decide) (by decide) ?_
  refine .cons (l := [32]) (w := [58]) (.blank _ (by decide) (.nil)) (.symbol (by simp [symbols]; rfl)) (by decide) (by decide) ?_
  refine .cons (l := [32]) (w := [105, 110, 116, 101, 103, 101, 114]) (.blank _ (by decide) (.nil)) (.name ⟨by decide, _, _, rfl, by decide⟩ (by decide +kernel) (by decide +kernel)) (by decide) (by decide) ?_
  refine .cons (l := []) (w := [59]) (.nil) (.symbol (by simp [symbols]; rfl)) (by decide) (by decide) ?_
  refine .cons (l := [32, 123, 32, 110, 117, 109, 98, 101, 114, 44, 32, 115, 117, 109, 32, 125, 10]) (w := [98, 101, 103, 105, 110]) (.blank _ (by decide) (.brace [32, 110, 117, 109, 98, 101, 114, 44, 32, 115, 117, 109, 32] (by decide) (.blank _ (by decide) (.nil)))) (.word (k := [66, 69, 71, 73, 78]) (by simp [words]) (by decide)) (by decide) (by decide) ?_
  refine .cons (l := [10, 32, 32]) (w := [116]) (.blank _ (by decide) (.blank _ (by decide) (.blank _ (by decide) (.nil)))) (.name ⟨by decide, _, _, rfl, by decide⟩ (by decide +kernel) (by decide +kernel)) (by decide) (by decide) ?_
  refine .cons (l := [32]) (w := [58, 61]) (.blank _ (by decide) (.nil)) (.symbol (by simp [symbols]; rfl)) (by decide) (by decide) ?_
  refine .cons (l := [32]) (w := [48]) (.blank _ (by decide) (.nil)) (.number (by decide) (by decide) (by decide)) (by decide) (by decide) ?_
  refine .cons (l := []) (w := [59]) (.nil) (.symbol (by simp [symbols]; rfl)) (by decide) (by decide) ?_
  refine .cons (l := [10, 32, 32]) (w := [114, 101, 112, 101, 97, 116]) (.blank _ (by decide) (.blank _ (by decide) (.blank _ (by decide) (.nil)))) (.word (k := [82, 69, 80, 69, 65, 84]) (by simp [words]) (by decide)) (by decide) (by decide) ?_
  refine .cons (l := [32]) (w := [114, 101, 97, 100]) (.blank _ (by decide) (.nil)) (.word (k := [82, 69, 65, 68]) (by simp [words]) (by decide)) (by decide) (by decide) ?_
  refine .cons (l := []) (w := [40]) (.nil) (.symbol (by simp [symbols]; rfl)) (by decide) (by decide) ?_
  refine .cons (l := []) (w := [110]) (.nil) (.name ⟨by decide, _, _, rfl, by decide⟩ (by decide +kernel) (by decide +kernel)) (by decide) (by decide) ?_
  refine .cons (l := []) (w := [41]) (.nil) (.symbol (by simp [symbols]; rfl)) (by decide) (by decide) ?_
  refine .cons (l := []) (w := [59]) (.nil) (.symbol (by simp [symbols]; rfl)) (by decide) (by decide) ?_
  refine .cons (l := [32]) (w := [116]) (.blank _ (by decide) (.nil)) (.name ⟨by decide, _, _, rfl, by decide⟩ (by decide +kernel) (by decide +kernel)) (by decide) (by decide) ?_
  refine .cons (l := [32]) (w := [58, 61]) (.blank _ (by decide) (.nil)) (.symbol (by simp [symbols]; rfl)) (by decide) (by decide) ?_
  refine .cons (l := [32]) (w := [116]) (.blank _ (by decide) (.nil)) (.name ⟨by decide, _, _, rfl, by decide⟩ (by decide +kernel) (by decide +kernel)) (by decide) (by decide) ?_
  refine .cons (l := [32]) (w := [43]) (.blank _ (by decide) (.nil)) (.symbol (by simp [symbols]; rfl)) (by decide) (by decide) ?_
  refine .cons (l := [32]) (w := [110]) (.blank _ (by decide) (.nil)) (.name ⟨by decide, _, _, rfl, by decide⟩ (by decide +kernel) (by decide +kernel)) (by decide) (by decide) ?_
  refine .cons (l := [32]) (w := [117, 110, 116, 105, 108]) (.blank _ (by decide) (.nil)) (.word (k := [85, 78, 84, 73, 76]) (by simp [words]) (by decide)) (by decide) (by decide) ?_
  refine .cons (l := [32]) (w := [110]) (.blank _ (by decide) (.nil)) (.name ⟨by decide, _, _, rfl, by decide⟩ (by decide +kernel) (by decide +kernel)) (by decide) (by decide) ?_
  refine .cons (l := [32]) (w := [61]) (.blank _ (by decide) (.nil)) (.symbol (by simp [symbols]; rfl)) (by decide) (by decide) ?_
  refine .cons (l := [32]) (w := [48]) (.blank _ (by decide) (.nil)) (.number (by decide) (by decide) (by decide)) (by decide) (by decide) ?_
  refine .cons (l := []) (w := [59]) (.nil) (.symbol (by simp [symbols]; rfl)) (by decide) (by decide) ?_
  refine .cons (l := [10, 32, 32]) (w := [119, 114, 105, 116, 101, 108, 110]) (.blank _ (by decide) (.blank _ (by decide) (.blank _ (by decide) (.nil)))) (.word (k := [87, 82, 73, 84, 69, 76, 78]) (by simp [words]) (by decide)) (by decide) (by decide) ?_
  refine .cons (l := []) (w := [40]) (.nil) (.symbol (by simp [symbols]; rfl)) (by decide) (by decide) ?_
  refine .cons (l := []) (w := [39, 115, 117, 109, 32, 39]) (.nil) (.string (t := [115, 117, 109, 32]) (by decide) (by decide) (by decide)) (by decide) (by decide) ?_
  refine .cons (l := []) (w := [44]) (.nil) (.symbol (by simp [symbols]; rfl)) (by decide) (by decide) ?_
  refine .cons (l := [32]) (w := [116]) (.blank _ (by decide) (.nil)) (.name ⟨by decide, _, _, rfl, by decide⟩ (by decide +kernel) (by decide +kernel)) (by decide) (by decide) ?_
  refine .cons (l := []) (w := [41]) (.nil) (.symbol (by simp [symbols]; rfl)) (by decide) (by decide) ?_
  refine .cons (l := [10]) (w := [101, 110, 100]) (.blank _ (by decide) (.nil)) (.word (k := [69, 78, 68]) (by simp [words]) (by decide)) (by decide) (by decide) ?_
  refine .last (l := []) (w := [46]) (.nil) (.symbol (by simp [symbols]; rfl)) (by decide) (by decide)

/-- C79, from the text of a program to its output, for every input: the program above, compiled, finalized and
linked, and run in a machine with enough memory.  If its standard input has a number in each line, and a line
with the number 0, it stops regularly and has written the sum of the numbers before the 0, in decimal notation,
behind what the standard output contained before; no other file has changed.  (The sum, but not the intermediate
sums, must be an integer of 16 bits.) -/
theorem C79_total (line : Nat → Byte × Word) (pad : Byte) (name : List Byte) {files : List (List Byte)}
    (hf : files ≠ []) :
    ∃ N o, (∀ n, N ≤ n → buildFile line pad name files n totalText = .ok (some o)) ∧
      (o.prog.length ≤ 65535 →
        ∀ (strSize stkSize hpSize : Word) (m0 : Nat → Word) (host : HostFile → Option (List Byte)),
          strSize.toNat % 2 = 0 →
          even strSize.toNat + even o.rodata.length + even stkSize.toNat + even hpSize.toNat < 65536 →
          50 ≤ stkSize.toNat →
          (hpSize.toNat ≤ 32 ∨ (even strSize.toNat + even o.rodata.length + even stkSize.toNat) % 16 = 0) →
          ∃ s, startUp (attrOf o strSize stkSize hpSize) m0 host = .ok s ∧
            ∀ p : Platform, OrdinaryPlatform p →
              ∀ (is : List Int) (more digits : List Byte), Column ((host .stdin).getD []) (is ++ [0]) more →
              (∀ i ∈ is, i ≠ 0) → -32768 ≤ is.sum → is.sum ≤ 32767 → DecimalInt digits is.sum →
              ∃ n t, runFor (machine p) o.prog (maxPc o) n s = .ok (eEXIT, t) ∧
                fileText t .stdout = (host .stdout).getD [] ++ [115, 117, 109, 32] ++ digits ++ [10] ∧
                ∀ f, f ≠ .stdout → t.io.files f = host f) := by
  obtain ⟨N, o, h1, h2⟩ := C71_source_partial total_ok totalText_written (by decide) (by decide) (by decide) (by decide)
    line pad name hf
  refine ⟨N, o, h1, fun hlen strSize stkSize hpSize m0 host a1 a2 a3 a4 => ?_⟩
  obtain ⟨s, hs, h⟩ := h2 hlen strSize stkSize hpSize m0 host a1 a2 (by omega) a4
  refine ⟨s, hs, fun p hp is more digits hc hne lo hi hd => ?_⟩
  obtain ⟨τ, left, hx⟩ := total_exec ((host .stdout).getD []) _ more is hc hne lo hi digits hd
  have hneed : 10 + even totalProgram.size + 2 * totalBody.need (callRoom totalProgram.decls 0) + 4 ≤ 50 := by decide
  obtain ⟨n, t, g1, g2, -, g3⟩ := h p hp 0 (by omega) _ _ _ _ hx fun x v _ hv => by cases hv
  exact ⟨n, t, g1, g2, g3⟩

/-- Builds the program in a file and runs it as `runFile` does, with a standard input. -/
def runWith (file stdin : List Byte) (n : Nat) : Option (List Byte) :=
  match buildFile (fun _ => (0, 0)) 0 [112] [[112]] 300 file with
  | .ok (some o) => match startUp (attrOf o 16 100 32) (fun _ => 0) (fun f => if f = .stdin then some stdin else none) with
    | .ok s => match runFor (machine barePlatform) o.prog (maxPc o) n s with
      | .ok (e, t) => if e = eEXIT then some (fileText t .stdout) else none
      | _ => none
    | _ => none
  | _ => none

/-- The numbers 7, -12 and 9 in lines, and 0. -/
def someNumbers : List Byte := [32, 55, 10, 45, 49, 50, 32, 10, 43, 57, 10, 48, 10, 88]

/-- The hypotheses of `C79_total` are met, and the program, executed, writes the sum. -/
example : Column someNumbers ([7, -12, 9] ++ [0]) [88] ∧ DecimalInt [52] ([7, -12, 9] : List Int).sum ∧
    runWith totalText someNumbers 300 = some [115, 117, 109, 32, 52, 10] := by
  refine ⟨?_, .inl ⟨4, rfl, ?_⟩, by decide +kernel⟩
  · refine .cons (blanks := [32]) (num := [55]) (trail := []) (by simp [BlankChar]) (by decide) (.plain (n := 7) ⟨by decide, by decide, rfl⟩)
      (by decide) (by decide) (by decide) ?_
    refine .cons (blanks := []) (num := [45, 49, 50]) (trail := [32]) (by simp [BlankChar]) (by decide)
      (.minus (n := 12) ⟨by decide, by decide, rfl⟩) (by decide) (by decide) (by decide) ?_
    refine .cons (blanks := []) (num := [43, 57]) (trail := []) (by simp) (by decide) (.plus (n := 9) ⟨by decide, by decide, rfl⟩)
      (by decide) (by decide) (by decide) ?_
    exact .cons (blanks := []) (num := [48]) (trail := []) (by simp) (by decide) (.plain (n := 0) ⟨by decide, by decide, rfl⟩)
      (by decide) (by decide) (by decide) .nil
  · exact ⟨by decide, by decide, by decide, by decide⟩

/-- The state of a machine with the lines of numbers as its standard input. -/
def readingState : VM := { recState with
  sp := 28#16
  io := { Io.empty.initializeFile with files := fun f => if f = .stdin then some someNumbers else none } }

/-- The hypotheses of `C79_numbers_partial` (and so those of `C79_read_partial`) are met by `readln(t, n)` in the
program above. -/
example : (totalProgram.env 20).Ok ∧ [tT, tN].Nodup ∧
    (∀ y ∈ [tT, tN], (totalProgram.env 20).vars y ∧ y.ty = .num .integer) ∧ Follows [.semi] ∧
    Column someNumbers [7, -12] [43, 57, 10, 48, 10, 88] ∧ (totalProgram.env 20).In readingState 14 ∧
    (totalProgram.env 20).Holds readingState.mem (fun _ => none) ∧
    (totalProgram.env 20).Input (machine barePlatform) readingState 14 ⟨false, someNumbers⟩ ∧
    readingState.sp.toNat % 2 = 0 ∧ 14 ≤ readingState.sp.toNat / 2 ∧ RoomFor readingState 3 := by
  have h0 := Source.procs_ok total_ok (by decide) 20
  have far : ∀ y a, (totalProgram.env 20).vars y → (totalProgram.env 20).Owns y a → 24 ≤ a := by
    intro y a hy ha
    have h1 := Source.var_inside hy
    have h2 : 20 + y.off.toNat ≤ a := ha.1
    omega
  refine ⟨Source.env_ok (by decide) (by decide) h0, by decide, ?_, ⟨_, _, rfl, by simp⟩, ?_,
    Source.env_in (s := readingState) (by decide) (by decide) (by decide) (by decide) (by decide) (by decide),
    (fun _ _ _ h => by cases h), ?_, by decide, by decide, ⟨by decide, by decide⟩⟩
  · intro y hy
    rcases List.mem_cons.1 hy with rfl | hy
    · exact ⟨⟨([116], .var _), by decide, List.mem_singleton.2 rfl⟩, rfl⟩
    · rcases List.mem_singleton.1 hy with rfl
      exact ⟨⟨([110], .var _), by decide, List.mem_singleton.2 rfl⟩, rfl⟩
  · refine .cons (blanks := [32]) (num := [55]) (trail := []) (by simp [BlankChar]) (by decide)
      (.plain (n := 7) ⟨by decide, by decide, rfl⟩) (by decide) (by decide) (by decide) ?_
    exact .cons (blanks := []) (num := [45, 49, 50]) (trail := [32]) (by simp [BlankChar]) (by decide)
      (.minus (n := 12) ⟨by decide, by decide, rfl⟩) (by decide) (by decide) (by decide) .nil
  · refine ⟨⟨_, _, rfl⟩, ⟨0, ⟨by decide, rfl, _, rfl, rfl, rfl⟩, rfl⟩, rfl, by decide, by decide, rfl, fun y a hy ha => ?_⟩
    have := far y a hy ha
    show a / 2 ≠ 10
    omega

/-! ### Violations -/

/-- `program p(input,output);var n:integer;c:char;begin read(n);read(c);write(c) end.` -/
def endText : List Byte :=
  [112, 114, 111, 103, 114, 97, 109, 32, 112, 40, 105, 110, 112, 117, 116, 44, 111, 117, 116, 112, 117, 116,
   41, 59, 118, 97, 114, 32, 110, 58, 105, 110, 116, 101, 103, 101, 114, 59, 99, 58, 99, 104, 97, 114, 59,
   98, 101, 103, 105, 110, 32, 114, 101, 97, 100, 40, 110, 41, 59, 114, 101, 97, 100, 40, 99, 41, 59, 119,
   114, 105, 116, 101, 40, 99, 41, 32, 101, 110, 100, 46, 10]

/-- Violation of C79: the end of a line is not read as a blank.  Behind the number 5, which is all there is in its
line, the program reads the character `X` of the next line. -/
theorem C79_violation_end : runWith endText [53, 10, 88, 10] 100 = some [88] := by decide +kernel

/-- `program p(input,output);var a,b:integer;begin read(a,b);write(a,' ',b) end.` -/
def twoText : List Byte :=
  [112, 114, 111, 103, 114, 97, 109, 32, 112, 40, 105, 110, 112, 117, 116, 44, 111, 117, 116, 112, 117, 116,
   41, 59, 118, 97, 114, 32, 97, 44, 98, 58, 105, 110, 116, 101, 103, 101, 114, 59, 98, 101, 103, 105, 110,
   32, 114, 101, 97, 100, 40, 97, 44, 98, 41, 59, 119, 114, 105, 116, 101, 40, 97, 44, 39, 32, 39, 44, 98,
   41, 32, 101, 110, 100, 46, 10]

/-- Violation of C79: two numbers cannot be read from one line.  Of the lines "1 2" and "3" the program reads 1
and 3. -/
theorem C79_violation_second_number : runWith twoText [49, 32, 50, 10, 51, 10] 100 = some [49, 32, 51] := by decide +kernel

/-- `program p(input,output);var a,b:char;begin read(a,b);write(a,b) end.` -/
def charsText : List Byte :=
  [112, 114, 111, 103, 114, 97, 109, 32, 112, 40, 105, 110, 112, 117, 116, 44, 111, 117, 116, 112, 117, 116,
   41, 59, 118, 97, 114, 32, 97, 44, 98, 58, 99, 104, 97, 114, 59, 98, 101, 103, 105, 110, 32, 114, 101, 97,
   100, 40, 97, 44, 98, 41, 59, 119, 114, 105, 116, 101, 40, 97, 44, 98, 41, 32, 101, 110, 100, 46, 10]

/-- Violation of C79: two characters cannot be read from one line.  Of the lines "AB" and "CD" the program reads A
and C. -/
theorem C79_violation_second_char : runWith charsText [65, 66, 10, 67, 68, 10] 100 = some [65, 67] := by decide +kernel

/-- Violation of C79: an empty line before a number is read as the number 0.  Of an empty line and the lines "1"
and "3" the program reads 0 and 1. -/
theorem C79_violation_empty_line : runWith twoText [10, 49, 10, 51, 10] 100 = some [48, 32, 49] := by decide +kernel

/-- With one number in each line the program reads both. -/
example : runWith twoText [49, 10, 51, 10] 100 = some [49, 32, 51] := by decide +kernel

end Pas.Src
