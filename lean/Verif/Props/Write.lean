import Verif.Props.Library
import Verif.Props.Statements

/-! Property C70: WRITE and WRITELN, from the source to the standard output. -/
namespace Pas.Src
open Pas.Spec Pas.Comp Pas.Link

/-- C70 (partial: text files other than OUTPUT, reals, strings other than constants and long integers
are not modelled; not the cases excluded by `Item.Ok`, which are violated, see below): for every list
of numbers, characters and string constants, WRITE and WRITELN compile without an error to code that,
executed in a machine in which file 1 is the standard output, appends the texts of the items in the
order in which they are written, and for WRITELN the end of the line, and changes no variable, no other
file and nothing else in the memory up to the top of the stack. -/
theorem C70_write_partial (g : Cfg) (lib : Lib) (Γ : Env) (hΓ : Γ.Ok) (hg : g.level = Γ.level)
    (ln file : Bool) (i : Item) (is : List Item) (items : ∀ j ∈ i :: is, j.Ok Γ.vars)
    (rest : List Tk) (cs : CS) (toks : cs.toks = (S.write ln file i is).toks ++ rest)
    (follows : Follows rest)
    (labels : cs.label.toNat + (S.write ln file i is).toks.length ≤ 65535)
    (depth : (S.write ln file i is).need 0 ≤ 16384) (adj : cs.adj = 0) :
    ∃ (N : Nat) (c : List OpType) (L : Word) (r : List Byte),
      (∀ n, N ≤ n → statement g n cs = some { cs with
        toks := rest
        out := cs.out ++ c
        label := L
        ro := cs.ro ++ r }) ∧
      ∀ (σ : Store) (old text : List Byte) (s : VM) (b : Nat) (ro : List Byte) (addr : Nat → Word)
        (p : List OpType) (k : Nat), Texts σ (i :: is) text →
        Γ.In s b → Γ.Holds s.mem σ → Γ.Output lib ro s b old →
        cs.ro ++ r <+: ro → s.sp.toNat % 2 = 0 → b ≤ s.sp.toNat / 2 → RoomFor s ((S.write ln file i is).need 0) →
        At p k c → Uniq p →
        ∃ t, PSteps lib addr p (k, s) (k + c.length, t) ∧ t.sp = s.sp ∧ Γ.Holds t.mem σ ∧
          fileText t .stdout = old ++ text ++ (if ln then [10#8] else []) ∧
          (∀ f, f ≠ .stdout → t.io.files f = s.io.files f) ∧ Γ.Keeps true s t := by
  obtain ⟨N, c, L, r, h1, -, -, -, h2⟩ := C49_statement_partial g lib Γ hΓ hg (.write ln file i is) rest cs
    items toks follows (fun h => by cases h) labels depth adj
  refine ⟨N, c, L, r, h1, fun σ old text s b ro addr p k htext hin hh hout hro hev hb hroom hat hu => ?_⟩
  obtain ⟨-, t, h3, h4, h5, h6⟩ := h2 ⟨σ, some old, none⟩ _ .normal s b ro addr p k
    (.write (σ := ⟨σ, some old, none⟩) rfl htext) hin
    ⟨hh, (fun _ e => by cases e; exact hout), fun _ e => by cases e⟩ hro hev hb hroom hat hu
  exact ⟨t, h3, h4, h5.holds, (h5.output _ rfl).text, h6.files, h6⟩

/-- C70 for whole programs (partial as `C52_program_partial`): what a program has written when it ends is
what the meaning of its statements says, behind what the standard output contained before. -/
theorem C70_program_partial {P : Source} {b : S .list} (line : Nat → Byte × Word) (pad : Byte) (ok : P.Ok b)
    (hs : P.size ≤ 32768) (hl : P.procs.toks.length + b.toks.length ≤ 65534) (hd : b.need 0 ≤ 16384)
    (name : List Byte) {files : List (List Byte)} (hf : files ≠ []) :
    ∃ N o, (∀ n, N ≤ n → build line pad name files n P.toks = .ok (some o)) ∧
      (o.prog.length ≤ 65535 →
        ∀ (strSize stkSize hpSize : Word) (m0 : Nat → Word) (host : HostFile → Option (List Byte)),
          strSize.toNat % 2 = 0 →
          even strSize.toNat + even o.rodata.length + even stkSize.toNat + even hpSize.toNat < 65536 →
          10 ≤ stkSize.toNat →
          (hpSize.toNat ≤ 32 ∨ (even strSize.toNat + even o.rodata.length + even stkSize.toNat) % 16 = 0) →
          ∃ s, startUp (attrOf o strSize stkSize hpSize) m0 host = .ok s ∧
            ∀ p : Platform, OrdinaryPlatform p →
              ∀ d, 10 + even P.size + 2 * b.need (callRoom P.decls d) + 4 ≤ stkSize.toNat →
              ∀ (σ τ : Store) (written : List Byte) (left : Option Inp),
              Exec (P.calls d) (.list b) ⟨σ, some ((host .stdout).getD []), some ⟨false, (host .stdin).getD []⟩⟩
                .normal ⟨τ, some written, left⟩ →
              (P.env s.spb.toNat).Holds s.mem σ →
              ∃ n t, runFor (machine p) o.prog (maxPc o) n s = .ok (eEXIT, t) ∧
                fileText t .stdout = written ∧ (P.env s.spb.toNat).Holds t.mem τ ∧
                ∀ f, f ≠ .stdout → t.io.files f = host f) := by
  obtain ⟨N, o, h1, h2⟩ := C52_machine_partial line pad ok hs hl hd name hf
  refine ⟨N, o, h1, fun hlen strSize stkSize hpSize m0 host a1 a2 a3 a4 => ?_⟩
  obtain ⟨s, hs, h⟩ := h2 hlen strSize stkSize hpSize m0 host a1 a2 a3 a4
  refine ⟨s, hs, fun p hp d hst σ τ written left hx hh => ?_⟩
  obtain ⟨n, t, g1, g2, g3, -, g5⟩ := h p hp d hst _ _ hx hh (fun _ e => by cases e; rfl)
    fun _ e => by cases e; rfl
  exact ⟨n, t, g1, g3 _ rfl, g2, g5⟩

/-- A program only ever adds to what it has written, if the procedures it calls do. -/
theorem C70_appends {P : Effects} (hP : ∀ q vs σ τ, P q vs σ τ →
      match σ.out, τ.out with
      | some a, some b => a <+: b
      | none, none => True
      | _, _ => False) {c : Cmd} {σ τ : State} {o : Outcome} (h : Exec P c σ o τ) :
    match σ.out, τ.out with
    | some a, some b => a <+: b
    | none, none => True
    | _, _ => False := by
  have id : ∀ x : Option (List Byte), match x, x with
    | some a, some b => a <+: b
    | none, none => True
    | _, _ => False := fun x => by cases x <;> simp
  have trans : ∀ {x y z : Option (List Byte)},
      (match x, y with | some a, some b => a <+: b | none, none => True | _, _ => False) →
      (match y, z with | some a, some b => a <+: b | none, none => True | _, _ => False) →
      (match x, z with | some a, some b => a <+: b | none, none => True | _, _ => False) := by
    intro x y z h1 h2
    cases x <;> cases y <;> cases z <;> first | trivial | exact h1.elim | exact h2.elim | exact h1.trans h2
  induction h with
  | write e _ => rw [e]; exact ⟨_, (List.append_assoc ..).symm⟩
  | newline e => rw [e]; exact ⟨_, rfl⟩
  | read h => rw [readVars_out h]; exact id _
  | readln h hn => cases hn; simp only [readVars_out h]; exact id _
  | skipLine hn => cases hn; exact id _
  | whileNext _ _ _ _ ih ih2 => exact trans ih ih2
  | repeatNext _ _ _ _ ih ih2 => exact trans ih ih2
  | loopNext _ _ _ _ _ ih ih2 => exact trans ih ih2
  | cons _ _ ih ih2 => exact trans ih ih2
  | for_ _ _ _ _ ih => exact ih
  | call _ h => exact hP _ _ _ _ h
  | _ => first | assumption | exact id _

/-! ### An example -/

/-- The variable `n` of the examples. -/
def wN : Variable := ⟨.num .integer, 0, 4⟩

/-- `n := 0; repeat n := n + 1; write('n =', n : 3) until n = 2; writeln; writeln(OUTPUT, 'end', 'X')` -/
def writeBody : S .list :=
  .cons (.assign wN (.simple (.term none (.factor (.int 0)))))
  (.cons (.repeat_
    (.cons (.assign wN (.simple (.add (.term none (.factor (.var wN))) .add (.factor (.int 1)))))
      (.one (.write false false (.str [110, 32, 61])
        [.val (.simple (.term none (.factor (.var wN)))) (some (.simple (.term none (.factor (.int 3)))))])))
    (.rel (.term none (.factor (.var wN))) .eq (.term none (.factor (.int 2)))))
  (.cons (.newline false)
  (.one (.write true true (.str [101, 110, 100]) [.val (.simple (.term none (.factor (.char 88)))) none]))))

/-- `program w (output); var n : integer; begin … end.` with the statements above. -/
def writeProgram : Source where
  name := [119]
  files := [outputName]
  groups := [⟨[110], [], [105, 110, 116, 101, 103, 101, 114], .num .integer, none, none⟩]
  body := [.name [110], .tk .assign, .tk (.int 0), .tk .semi,
    .tk .repeat_, .name [78], .tk .assign, .name [110], .tk .plus, .tk (.int 1), .tk .semi,
    .tk .write_, .tk .lparen, .tk (.str [110, 32, 61]), .tk .comma, .name [110], .tk .colon, .tk (.int 3), .tk .rparen,
    .tk .until_, .name [110], .tk .eq, .tk (.int 2), .tk .semi,
    .tk .writeln_, .tk .semi,
    .tk .writeln_, .tk .lparen, .name [79, 117, 116, 112, 117, 116], .tk .comma, .tk (.str [101, 110, 100]), .tk .comma,
      .tk (.char 88), .tk .rparen]

theorem write_ok : writeProgram.Ok writeBody := by
  let sc : Scope := [] ++ ([] ++ locals 0 writeProgram.consts writeProgram.groups ++ Dcl.heads 0 1 .nil)
  have hd : sc.Pairwise fun a b => ¬ SameName a.1 b.1 := by decide
  have n : Scope.vars sc wN := ⟨([110], .var _), by decide, List.mem_singleton.2 rfl⟩
  have sn : ∀ m, SameName [110] m → Spells sc (.name m) wN.tk :=
    fun m h => .var (means_of_mem hd (n := [110]) (by decide) h)
  refine ⟨?_, ?_, ⟨?_, ?_, trivial, by decide, ?_, no_bounds (by decide), ?_, ?_, ?_⟩, trivial⟩
  · exact ⟨by unfold Plain; decide +kernel, by decide +kernel⟩
  · decide
  · unfold New Plain; decide +kernel
  · exact hd
  · decide
  · decide
  · repeat' apply pointwise_cons
    all_goals first
      | exact pointwise_nil
      | exact .other (by simp) (by simp) (by simp) (by simp) (by simp)
      | exact sn _ (by decide)
      | exact .output (by decide)
  · refine ⟨⟨n, ?_, by decide⟩, ⟨⟨⟨n, ?_, by decide⟩, ?_⟩, ?_⟩, trivial, ?_⟩
    · intro y hy; simp [E.vars] at hy
    · intro y hy; simp [E.vars] at hy; subst hy; exact n
    · intro j hj
      rcases List.mem_cons.1 hj with rfl | hj
      · exact ⟨by decide, by decide⟩
      · rcases List.mem_singleton.1 hj with rfl
        refine ⟨⟨.num .integer, ⟨fun y hy => ?_, by decide⟩, by decide⟩, fun u hu => ?_⟩
        · simp [E.vars] at hy; subst hy; exact n
        · cases hu; exact ⟨fun y hy => by simp [E.vars] at hy, by decide⟩
    · exact ⟨fun y hy => by simp [E.vars] at hy; subst hy; exact n, by decide⟩
    · intro j hj
      rcases List.mem_cons.1 hj with rfl | hj
      · exact ⟨by decide, by decide⟩
      · rcases List.mem_singleton.1 hj with rfl
        exact ⟨⟨.char, ⟨fun y hy => by simp [E.vars] at hy, by decide⟩, by decide⟩, fun u hu => by cases hu⟩

/-- `n =  1`, `n =  2`, end of line, `endX`, end of line. -/
def written : List Byte :=
  [110, 32, 61, 32, 32, 49, 110, 32, 61, 32, 32, 50, 10, 101, 110, 100, 88, 10]

/-- The text of `n : 3`, with `n` a digit. -/
theorem text_n {σ : Store} {d : Nat} (h : σ wN = some (.num .integer d)) (hd : d ≤ 9) :
    (Item.val (.simple (.term none (.factor (.var wN)))) (some (.simple (.term none (.factor (.int 3)))))).Text σ
      [32, 32, BitVec.ofNat 8 (48 + d)] := by
  refine ⟨.num .integer d, 3, ?_, ⟨rfl, by decide⟩, [BitVec.ofNat 8 (48 + d)], .inl ⟨d, rfl, ?_⟩, 2, rfl, rfl⟩
  · simp only [E.eval, h]
  · refine ⟨?_, by simp, by simp, ?_⟩
    · intro b hb; rcases List.mem_singleton.1 hb with rfl; simp; omega
    · simp; omega

/-- The hypotheses of `C70_program_partial` are met by a program with a loop. -/
example : writeProgram.Ok writeBody ∧ writeProgram.size ≤ 32768 ∧ writeProgram.procs.toks.length + writeBody.toks.length ≤ 65534 ∧
    writeBody.need 0 ≤ 16384 ∧ OrdinaryPlatform barePlatform ∧
    ∀ σ old inp, ∃ τ, Exec (writeProgram.calls 0) (.list writeBody) ⟨σ, some old, inp⟩ .normal
      ⟨τ, some (old ++ written), inp⟩ := by
  refine ⟨write_ok, by decide, by decide, by decide, barePlatform_ok, fun σ old inp => ?_⟩
  have h : Exec (writeProgram.calls 0) (.list writeBody) ⟨σ, some old, inp⟩ .normal _ :=
    .cons (.assign (v := .num .integer 0) rfl) (.cons
      (.repeatNext (o := .normal)
        (.cons (.assign (v := .num .integer 1) rfl) (.one (.write rfl (.cons rfl (.cons (text_n (d := 1) rfl (by decide)) .nil)))))
        (by decide) rfl
      (.repeatEnd (o := .normal)
        (.cons (.assign (v := .num .integer 2) rfl) (.one (.write rfl (.cons rfl (.cons (text_n (d := 2) rfl (by decide)) .nil)))))
        (by decide) rfl))
      (.cons (.newline rfl)
      (.one (.write rfl (.cons rfl (.cons ⟨.char 88, 0, rfl, rfl, 0, rfl, rfl⟩ .nil))))))
  exact ⟨_, cast (by simp [written]; rfl) h⟩

/-- Builds a program, runs it for `n` instructions in a machine as in `buildAndRun`, with the routines
of the code, and shows what it has written. -/
def buildAndWrite (toks : List Lx) (n : Nat) : Option (List Byte) :=
  match build (fun _ => (0, 0)) 0 [112] [[112]] 40 toks with
  | .ok (some o) => match startUp (attrOf o 16 100 32) (fun _ => 0) with
    | .ok s => match runFor (machine barePlatform) o.prog (maxPc o) n s with
      | .ok (e, t) => if e = eEXIT then some (fileText t .stdout) else none
      | _ => none
    | _ => none
  | _ => none

/-- The example, executed. -/
example : buildAndWrite writeProgram.toks 200 = some written := by decide +kernel

/-! ### The constants -/

theorem itemsRo_even (pad : Byte) : ∀ l : List Item, (itemsRo pad l).length % 2 = 0
  | [] => rfl
  | i :: l => by
    have := itemsRo_even pad l
    have h : (i.ro pad).length % 2 = 0 := by
      cases i with
      | val => rfl
      | str t =>
        by_cases h : (t.length + 1) % 2 = 0
        · simp only [Item.ro, roString, if_pos h, List.length_append, List.length_cons, List.length_nil]; omega
        · simp only [Item.ro, roString, if_neg h, List.length_append, List.length_cons, List.length_nil]; omega
    simp only [itemsRo, List.length_append]
    omega

theorem ro_even (pad : Byte) : ∀ {k : SK} (s : S k), (s.ro pad).length % 2 = 0 := by
  intro k s
  induction s <;> simp only [S.ro, List.length_append, List.length_nil] <;> first | omega | exact itemsRo_even ..

theorem dcl_ro_even (pad : Byte) : ∀ {k : DK} (d : Dcl k), (d.ro pad).length % 2 = 0 := by
  intro k d
  induction d with
  | blk ks gs ps body st ih =>
    have := ro_even pad st
    simp only [Dcl.ro, List.length_append]
    omega
  | nil => rfl
  | cons name parms b rest ih1 ih2 =>
    simp only [Dcl.ro, List.length_append]
    omega

/-- C70 (partial: as `C52_program_partial`): the constants of a program have an even number of bytes, so that
what follows them in the memory is aligned. -/
theorem C70_constants_partial {P : Source} {b : S .list} (line : Nat → Byte × Word) (pad : Byte) (ok : P.Ok b)
    (hs : P.size ≤ 32768) (hl : P.procs.toks.length + b.toks.length ≤ 65534) (hd : b.need 0 ≤ 16384)
    (name : List Byte) {files : List (List Byte)} (hf : files ≠ []) :
    ∃ N o, (∀ n, N ≤ n → build line pad name files n P.toks = .ok (some o)) ∧ o.rodata.length % 2 = 0 := by
  obtain ⟨N, o, h1, _, h2, _⟩ := build_ok line pad ok hs hl hd name hf
  refine ⟨N, o, h1, ?_⟩
  have e1 := dcl_ro_even pad P.procs
  have e2 := ro_even pad b
  rw [h2, List.length_append]
  omega

/-! ### Violations -/

/-- The tokens of `program p; var n : integer; begin … end.` -/
def withN (body : List Lx) : List Lx :=
  [.name [112], .tk .semi, .var_, .name [110], .tk .colon, .name [105, 110, 116, 101, 103, 101, 114], .tk .semi,
    .tk .begin_] ++ body ++ [.tk .end_, .tk .period]

/-- The number of errors the compiler reports. -/
def errorsOf (body : List Lx) : Option Nat :=
  match program (fun _ => (0, 0)) 0 40 (withN body) with
  | .ok (some o) => some o.errs
  | _ => none

/-- Violation of C70: Boolean values cannot be written, `write(true)` is rejected. -/
theorem C70_violation_boolean :
    errorsOf [.tk .write_, .tk .lparen, .name [116, 114, 117, 101], .tk .rparen] = some 1 := by decide +kernel

/-- Violation of C70: a string constant cannot be given a field width, `write('a' : 5)` is rejected.  (The
compiler looks for the colon when it has not yet read over the string constant.) -/
theorem C70_violation_string_width :
    errorsOf [.tk .write_, .tk .lparen, .tk (.str [97]), .tk .colon, .tk (.int 5), .tk .rparen] = some 3 := by
  decide +kernel

/-- Violation of C70: an INTEGER variable cannot be a field width, `write(1 : n)` is rejected. -/
theorem C70_violation_integer_width :
    errorsOf [.tk .write_, .tk .lparen, .tk (.int 1), .tk .colon, .name [110], .tk .rparen] = some 2 := by
  decide +kernel

/-- Violation of C70: `writeln(output)` is rejected, although the list of items can be empty without the
name of the file. -/
theorem C70_violation_writeln_file :
    errorsOf [.tk .writeln_, .tk .lparen, .name outputName, .tk .rparen] = some 2 ∧
    errorsOf [.tk .writeln_, .tk .lparen, .tk .rparen] = some 0 := by decide +kernel

/-- Violation of C70: a field width below zero is not reported but taken modulo 256: `write(1 : -1)` writes
254 blanks in front of the digit. -/
theorem C70_violation_negative_width :
    buildAndWrite (withN [.tk .write_, .tk .lparen, .tk (.int 1), .tk .colon, .tk .minus, .tk (.int 1), .tk .rparen])
      100 = some (List.replicate 254 32 ++ [49]) := by decide +kernel

/-- Violation of C70: incorrect statements are accepted: `write(, 1)`, and `write(output 1)` without a
comma, write `1`. -/
theorem C70_violation_comma :
    buildAndWrite (withN [.tk .write_, .tk .lparen, .tk .comma, .tk (.int 1), .tk .rparen]) 100 = some [49] ∧
    buildAndWrite (withN [.tk .write_, .tk .lparen, .name outputName, .tk (.int 1), .tk .rparen]) 100 =
      some [49] := by decide +kernel

/-- Violation of C70: a precision is accepted for values that are not REAL; `write(1 : 3 : 2)` writes as
`write(1 : 3)`, and a precision below zero replaces the field width, `write(1 : 3 : -1)` writes 254 blanks
in front of the digit. -/
theorem C70_violation_precision :
    buildAndWrite (withN [.tk .write_, .tk .lparen, .tk (.int 1), .tk .colon, .tk (.int 3), .tk .colon, .tk (.int 2),
      .tk .rparen]) 100 = some [32, 32, 49] ∧
    buildAndWrite (withN [.tk .write_, .tk .lparen, .tk (.int 1), .tk .colon, .tk (.int 3), .tk .colon, .tk .minus,
      .tk (.int 1), .tk .rparen]) 100 = some (List.replicate 254 32 ++ [49]) := by decide +kernel

end Pas.Src
