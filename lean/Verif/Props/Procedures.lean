import Verif.Props.Source

/-! Property C72: procedures. -/
namespace Pas.Src
open Pas.Spec Pas.Comp Pas.Link

/-! ### Meaning -/

/-- More effects of calls, more executions. -/
theorem Exec.mono {P Q : Effects} (h : ∀ q vs σ τ, P q vs σ τ → Q q vs σ τ) {c : Cmd} {σ τ : State} {o : Outcome}
    (hx : Exec P c σ o τ) : Exec Q c σ o τ := by
  induction hx with
  | empty => exact .empty
  | assign h => exact .assign h
  | assignAt h1 h2 h3 => exact .assignAt h1 h2 h3
  | write h1 h2 => exact .write h1 h2
  | newline h => exact .newline h
  | read h => exact .read h
  | readln h h' => exact .readln h h'
  | skipLine h => exact .skipLine h
  | call h1 h2 => exact .call h1 (h _ _ _ _ h2)
  | thenTrue h _ ih => exact .thenTrue h ih
  | thenFalse h => exact .thenFalse h
  | elseTrue h _ ih => exact .elseTrue h ih
  | elseFalse h _ ih => exact .elseFalse h ih
  | whileEnd h => exact .whileEnd h
  | whileBreak h _ ih => exact .whileBreak h ih
  | whileNext h _ ho _ ih ih' => exact .whileNext h ih ho ih'
  | repeatEnd _ ho h ih => exact .repeatEnd ih ho h
  | repeatBreak _ ih => exact .repeatBreak ih
  | repeatNext _ ho h _ ih ih' => exact .repeatNext ih ho h ih'
  | for_ h1 h2 h3 _ ih => exact .for_ h1 h2 h3 ih
  | loopEnd h => exact .loopEnd h
  | loopBreak h _ ih => exact .loopBreak h ih
  | loopNext h _ ho h' _ ih ih' => exact .loopNext h ih ho h' ih'
  | case_ h _ ih => exact .case_ h ih
  | block _ ih => exact .block ih
  | break_ => exact .break_
  | continue_ => exact .continue_
  | one _ ih => exact .one ih
  | consStop _ h ih => exact .consStop ih h
  | cons _ _ ih ih' => exact .cons ih ih'
  | lastYes h _ ih => exact .lastYes h ih
  | lastNo h => exact .lastNo h
  | moreYes h _ ih => exact .moreYes h ih
  | moreNo h _ ih => exact .moreNo h ih
  | otherwise _ ih => exact .otherwise ih

theorem calls_next (D : Decls) : ∀ d q vs σ τ, Calls D d q vs σ τ → Calls D (d + 1) q vs σ τ
  | 0, _, _, _, _, h => h.elim
  | d + 1, _, _, _, _, ⟨decl, τ', h1, h2, h3⟩ => ⟨decl, τ', h1, h2.mono (calls_next D d), h3⟩

theorem calls_mono (D : Decls) {d d' : Nat} (hd : d ≤ d') : ∀ q vs σ τ, Calls D d q vs σ τ → Calls D d' q vs σ τ := by
  induction hd with
  | refl => exact fun _ _ _ _ h => h
  | step _ ih => exact fun q vs σ τ h => calls_next D _ q vs σ τ (ih q vs σ τ h)

theorem calls_deterministic (D : Decls) : ∀ d q vs σ τ τ', Calls D d q vs σ τ → Calls D d q vs σ τ' → τ = τ'
  | 0, _, _, _, _, _, h, _ => h.elim
  | d + 1, _, _, _, _, _, ⟨decl, υ, h1, h2, h3⟩, ⟨decl', υ', h1', h2', h3'⟩ => by
    rw [h1] at h1'
    cases h1'
    have := (C49_deterministic (calls_deterministic D d) h2 h2').2
    rw [h3, h3', this]

/-- C72: the meaning of a program with procedures is one state: it does not depend on the bound of the depth
of the calls, which only says how much stack they need. -/
theorem C72_deterministic (P : Source) (b : S .list) {d d' : Nat} {σ τ τ' : State} {o o' : Outcome}
    (h : Exec (P.calls d) (.list b) σ o τ) (h' : Exec (P.calls d') (.list b) σ o' τ') : o = o' ∧ τ = τ' :=
  C49_deterministic (calls_deterministic (declIn P.decls) (max d d'))
    (h.mono (calls_mono _ (Nat.le_max_left ..))) (h'.mono (calls_mono _ (Nat.le_max_right ..)))

/-- C72: calls only add to what has been written. -/
theorem C72_appends (P : Source) : ∀ (d : Nat) q vs σ τ, P.calls d q vs σ τ →
    match σ.out, τ.out with
    | some a, some b => a <+: b
    | none, none => True
    | _, _ => False
  | 0, _, _, _, _, h => h.elim
  | d + 1, q, vs, σ, τ, ⟨decl, τ', _, h2, h3⟩ => by
    have := C70_appends (C72_appends P d) h2
    rw [h3]
    exact this

/-! ### Calls on the machine -/

/-- C72 (partial: value parameters and variables of the ordinal types of at most 16 bits): a call of a declared
procedure in the code of a correct program.  In every state of the machine in which the arguments are on the
top of the stack, the call instruction executes the procedure and comes back behind the call, with the same
stack pointer, and the variables and the output are as the meaning of the procedure says: its parameters
have the values of the arguments, the variables of the levels around the procedure are those the caller
sees, and its own variables are new ones for each call, also if the procedure calls itself, directly or
through others.  The memory below the arguments that does not belong to variables is unchanged. -/
theorem C72_call_partial {P : Source} {b : S .list} (line : Nat → Byte × Word) (pad : Byte) (ok : P.Ok b)
    (hs : P.size ≤ 32768) (hl : P.procs.toks.length + b.toks.length ≤ 65534) (lib : Lib) (d : Nat)
    {Γ : Env} (hΓ : Γ.Ok) (hsee : Sees (declIn P.decls) Γ.vars Γ.procs)
    {q : Proc} (hq : Γ.procs q) {vs : List Val} {σ τ : State} (hcall : P.calls d q (vs.map Val.trim) σ τ)
    (hty : vs.map Val.ty = q.parms) (hran : ∀ v ∈ vs, v.Ranged) {k : Nat}
    (hk : (codeP line pad P b)[k]? = some (ins .pcal (q.level + 1 : Nat) q.label))
    {s : VM} {m : Nat} (hin : Γ.In s m) (hhas : Γ.Has lib (P.procs.ro pad ++ b.ro pad) s m σ)
    (he : s.sp.toNat % 2 = 0) (hm : m + vs.length ≤ s.top)
    (hargs : ∀ i v, vs[i]? = some v → s.mem (s.top - vs.length + 1 + i) = v.word)
    (hroom : RoomFor s (callRoom P.decls d)) :
    ∃ t, PSteps lib (place (codeP line pad P b)) (codeP line pad P b) (k, s) (k + 1, t) ∧ t.sp = s.sp ∧
      Γ.Has lib (P.procs.ro pad ++ b.ro pad) t m τ ∧
      Γ.Keeps σ.io { s with sp := s.sp - BitVec.ofNat 16 (2 * vs.length) } t := by
  obtain ⟨t, h1, h2, h3, h4⟩ := calls_ok (lib := lib) (addr := place (codeP line pad P b)) (ro := P.procs.ro pad ++ b.ro pad)
    (wr := σ.io) (c := callRoom P.decls) (codeP_uniq ok hl) (Source.decls_ok ok hs hl)
    (fun q decl h => placed_at line pad (P.block b) 0 0 [] 1 [] 0 codeP_at List.prefix_rfl q decl (P.decl_iff.1 h))
    (fun k i => place_pcal) (callRoom_room P.decls) d Γ m hΓ hsee q vs σ τ k s hq hcall hty hran hk hin
    ⟨hhas, fun h => by simpa [State.io] using h⟩ he hm hargs hroom
  exact ⟨t, h1, h3, h4.has, h2⟩

/-! ### An example -/

/-- The variables and procedures of the example. -/
def rN : Variable := ⟨.num .integer, 0, 4⟩
@[inherit_doc rN] def rK : Variable := ⟨.num .integer, 1, -4⟩
@[inherit_doc rN] def rC : Variable := ⟨.char, 1, -2⟩
@[inherit_doc rN] def rM : Variable := ⟨.num .integer, 1, 0⟩
@[inherit_doc rN] def rJ : Variable := ⟨.num .integer, 2, -2⟩
@[inherit_doc rN] def rDown : Proc := ⟨0, 2, [.num .integer, .char]⟩
@[inherit_doc rN] def rShow : Proc := ⟨1, 4, [.num .integer]⟩

/-- The expression `x`. -/
def eVar (x : Variable) : E .expr := .simple (.term none (.factor (.var x)))
/-- The expression `n`. -/
def eInt (n : Nat) : E .expr := .simple (.term none (.factor (.int n)))

/-- `write(j : 2, c); n := n + k` -/
def showBody : S .list :=
  .cons (.write false false (.val (eVar rJ) (some (eInt 2))) [.val (eVar rC) none])
    (.one (.assign rN (eSum rN rK)))

/-- `m := k; if k > 0 then begin Down(k - 1, c); Show(m) end` -/
def downBody : S .list :=
  .cons (.assign rM (eVar rK))
  (.one (.ifThen (.rel (.term none (.factor (.var rK))) .gt (.term none (.factor (.int 0))))
    (.block (.cons (.call rDown [.simple (.add (.term none (.factor (.var rK))) .sub (.factor (.int 1))), eVar rC])
      (.one (.call rShow [eVar rM]))))))

/-- `n := 0; Down(2, 'x'); writeln(n)` -/
def recBody : S .list :=
  .cons (.assign rN (eInt 0))
  (.cons (.call rDown [eInt 2, .simple (.term none (.factor (.char 120)))])
  (.one (.write true false (.val (eVar rN) none) [])))

/-- `integer` and `char`. -/
def integerName : List Byte := [105, 110, 116, 101, 103, 101, 114]
@[inherit_doc integerName] def charName : List Byte := [99, 104, 97, 114]

/-- `procedure Show (j : integer); begin Write(j : 2, c); n := n + k end;` -/
def showProc : Dcl .procs :=
  .cons [83, 104, 111, 119] [⟨[106], [], integerName, .num .integer, none, none⟩]
    (.blk [] [] .nil [.tk .write_, .tk .lparen, .name [106], .tk .colon, .tk (.int 2), .tk .comma, .name [99], .tk .rparen, .tk .semi,
      .name [110], .tk .assign, .name [110], .tk .plus, .name [107]] showBody) .nil

/-- `procedure Down (k : integer; c : char); var m : integer; … begin m := k; if k > 0 then begin
DOWN(k - 1, c); show(m) end end;` -/
def downProc : Dcl .procs :=
  .cons [68, 111, 119, 110] [⟨[107], [], integerName, .num .integer, none, none⟩, ⟨[99], [], charName, .char, none, none⟩]
    (.blk [] [⟨[109], [], integerName, .num .integer, none, none⟩] showProc
      [.name [109], .tk .assign, .name [107], .tk .semi, .tk .if_, .name [107], .tk .gt, .tk (.int 0), .tk .then_, .tk .begin_,
        .name [68, 79, 87, 78], .tk .lparen, .name [107], .tk .minus, .tk (.int 1), .tk .comma, .name [99], .tk .rparen, .tk .semi,
        .name [115, 104, 111, 119], .tk .lparen, .name [109], .tk .rparen, .tk .end_] downBody) .nil

/-- `program r (output); var n : integer; … begin n := 0; Down(2, 'x'); writeln(n) end.` -/
def recProgram : Source where
  name := [114]
  files := [outputName]
  groups := [⟨[110], [], integerName, .num .integer, none, none⟩]
  procs := downProc
  body := [.name [110], .tk .assign, .tk (.int 0), .tk .semi,
    .name [68, 111, 119, 110], .tk .lparen, .tk (.int 2), .tk .comma, .tk (.char 120), .tk .rparen, .tk .semi,
    .tk .writeln_, .tk .lparen, .name [110], .tk .rparen]

/-- What is declared in the program, in `Down` and in `Show`. -/
def scProgram : Scope := [([110], .var rN), ([68, 111, 119, 110], .proc rDown)]
@[inherit_doc scProgram] def scDown : Scope := scProgram ++ [([107], .var rK), ([99], .var rC), ([109], .var rM), ([83, 104, 111, 119], .proc rShow)]
@[inherit_doc scProgram] def scShow : Scope := scDown ++ [([106], .var rJ)]

/-- Variables and procedures of a scope. -/
theorem scope_vars {sc : Scope} {l : List Variable} (h : ∀ y ∈ l, ∃ e ∈ sc, e.2 = Ent.var y) : ∀ y ∈ l, Scope.vars sc y :=
  fun y hy => by obtain ⟨⟨n, e⟩, h1, h2⟩ := h y hy; exact ⟨_, h1, by
    have h2 : e = Ent.var y := h2
    subst h2; exact List.mem_singleton.2 rfl⟩

theorem spells_var {sc : Scope} (h : sc.Pairwise fun a b => ¬ SameName a.1 b.1) (x : Variable) (n : List Byte) {m : List Byte}
    (h1 : (n, Ent.var x) ∈ sc) (h2 : SameName n m) : Spells sc (.name m) x.tk := .var (means_of_mem h h1 h2)

theorem spells_proc {sc : Scope} (h : sc.Pairwise fun a b => ¬ SameName a.1 b.1) (q : Proc) (n : List Byte) {m : List Byte}
    (h1 : (n, Ent.proc q) ∈ sc) (h2 : SameName n m) : Spells sc (.name m) q.tk := .proc (means_of_mem h h1 h2)

theorem rec_main : BlockOk 0 [] [] [] recProgram.groups (downProc.heads 0 1) recProgram.body recBody := by
  have d : scProgram.Pairwise fun a b => ¬ SameName a.1 b.1 := by decide
  refine ⟨?_, by decide, trivial, by decide, by decide, no_bounds (by decide), by decide, ?_, ?_⟩
  · unfold New Plain; decide +kernel
  · show Pointwise (Spells scProgram) _ _
    repeat' apply pointwise_cons
    all_goals first
      | exact pointwise_nil
      | exact .other (by simp) (by simp) (by simp) (by simp) (by simp)
      | exact spells_var d rN [110] (by decide) (by decide)
      | exact spells_proc d rDown [68, 111, 119, 110] (by decide) (by decide)
  · show recBody.Ok (Scope.vars scProgram) (Scope.procs scProgram) false false
    refine ⟨⟨⟨([110], .var rN), by decide, by decide⟩, scope_vars (by decide), by decide⟩,
      ⟨⟨[68, 111, 119, 110], by decide⟩, ⟨scope_vars (by decide), by decide⟩, ⟨scope_vars (by decide), by decide⟩, trivial⟩, ?_⟩
    intro j hj
    rcases List.mem_singleton.1 hj with rfl
    exact ⟨⟨.num .integer, ⟨scope_vars (by decide), by decide⟩, by decide⟩, fun u hu => by cases hu⟩

theorem rec_down : BlockOk 1 scProgram (parmScope 1 [⟨[107], [], integerName, .num .integer, none, none⟩, ⟨[99], [], charName, .char, none, none⟩])
    [] [⟨[109], [], integerName, .num .integer, none, none⟩] (showProc.heads 1 3)
    [.name [109], .tk .assign, .name [107], .tk .semi, .tk .if_, .name [107], .tk .gt, .tk (.int 0), .tk .then_, .tk .begin_,
        .name [68, 79, 87, 78], .tk .lparen, .name [107], .tk .minus, .tk (.int 1), .tk .comma, .name [99], .tk .rparen, .tk .semi,
        .name [115, 104, 111, 119], .tk .lparen, .name [109], .tk .rparen, .tk .end_] downBody := by
  have d : scDown.Pairwise fun a b => ¬ SameName a.1 b.1 := by decide
  refine ⟨?_, by decide, trivial, by decide, by decide, no_bounds (by decide), by decide, ?_, ?_⟩
  · unfold New Plain; decide +kernel
  · show Pointwise (Spells scDown) _ _
    repeat' apply pointwise_cons
    all_goals first
      | exact pointwise_nil
      | exact .other (by simp) (by simp) (by simp) (by simp) (by simp)
      | exact spells_var d rM [109] (by decide) (by decide)
      | exact spells_var d rK [107] (by decide) (by decide)
      | exact spells_var d rC [99] (by decide) (by decide)
      | exact spells_proc d rDown [68, 111, 119, 110] (by decide) (by decide)
      | exact spells_proc d rShow [83, 104, 111, 119] (by decide) (by decide)
  · show downBody.Ok (Scope.vars scDown) (Scope.procs scDown) false false
    exact ⟨⟨⟨([109], .var rM), by decide, by decide⟩, scope_vars (by decide), by decide⟩, ⟨scope_vars (by decide), by decide⟩,
      ⟨⟨[68, 111, 119, 110], by decide⟩, ⟨scope_vars (by decide), by decide⟩, ⟨scope_vars (by decide), by decide⟩, trivial⟩,
      ⟨[83, 104, 111, 119], by decide⟩, ⟨scope_vars (by decide), by decide⟩, trivial⟩

theorem rec_show : BlockOk 2 scDown (parmScope 2 [⟨[106], [], integerName, .num .integer, none, none⟩]) [] [] []
    [.tk .write_, .tk .lparen, .name [106], .tk .colon, .tk (.int 2), .tk .comma, .name [99], .tk .rparen, .tk .semi,
      .name [110], .tk .assign, .name [110], .tk .plus, .name [107]] showBody := by
  have d : scShow.Pairwise fun a b => ¬ SameName a.1 b.1 := by decide
  refine ⟨?_, by decide, trivial, by decide, by decide, no_bounds (by decide), by decide, ?_, ?_⟩
  · unfold New Plain; decide +kernel
  · show Pointwise (Spells scShow) _ _
    repeat' apply pointwise_cons
    all_goals first
      | exact pointwise_nil
      | exact .other (by simp) (by simp) (by simp) (by simp) (by simp)
      | exact spells_var d rN [110] (by decide) (by decide)
      | exact spells_var d rK [107] (by decide) (by decide)
      | exact spells_var d rC [99] (by decide) (by decide)
      | exact spells_var d rJ [106] (by decide) (by decide)
  · show showBody.Ok (Scope.vars scShow) (Scope.procs scShow) false false
    refine ⟨?_, ⟨([110], .var rN), by decide, by decide⟩, scope_vars (by decide), by decide⟩
    intro j hj
    rcases List.mem_cons.1 hj with rfl | hj
    · refine ⟨⟨.num .integer, ⟨scope_vars (by decide), by decide⟩, by decide⟩, fun u hu => ?_⟩
      cases hu
      exact ⟨scope_vars (by decide), by decide⟩
    · rcases List.mem_singleton.1 hj with rfl
      exact ⟨⟨.char, ⟨scope_vars (by decide), by decide⟩, by decide⟩, fun u hu => by cases hu⟩

theorem rec_ok : recProgram.Ok recBody :=
  ⟨⟨by unfold Plain; decide +kernel, by decide +kernel⟩, by decide, rec_main,
    by decide, by decide,
    ⟨rec_down, by decide, by decide, ⟨rec_show, trivial⟩, trivial⟩, trivial⟩

/-- ` 1x 2x3`, end of line. -/
def recWritten : List Byte := [32, 49, 120, 32, 50, 120, 51, 10]

/-- The example, executed. -/
example : buildAndWrite recProgram.toks 400 = some recWritten := by decide +kernel

/-- The state of the machine before `Down(0, 'x')` is called. -/
def recState : VM := { exState with
  fp := 0#16
  spb := 20#16
  sp := 36#16
  words := 400
  mem := fun j => if j = 18 then 120#16 else 0#16 }

theorem rec_call0 (σ : State) : ∃ τ, recProgram.calls 1 rDown [.num .integer 0, .char 120] σ τ ∧ τ = σ :=
  ⟨_, ⟨_, _, rfl, .cons (.assign (v := .num .integer 0) rfl) (.one (.thenFalse rfl)), rfl⟩, by
    unfold State.leave State.set
    congr 1
    funext x
    by_cases h : x.level ≤ rDown.level
    · have : x ≠ rM := by rintro rfl; exact absurd h (by decide)
      simp only [State.enter, Store.set, if_pos h, if_neg this]
    · exact if_neg h⟩

/-- The hypotheses of `C72_call_partial` are met by a call in the statements of a program. -/
example : ∃ (k m : Nat) (σ τ : State), recProgram.Ok recBody ∧ recProgram.size ≤ 32768 ∧
    recProgram.procs.toks.length + recBody.toks.length ≤ 65534 ∧
    (recProgram.env 20).Ok ∧ Sees (declIn recProgram.decls) (recProgram.env 20).vars (recProgram.env 20).procs ∧
    (recProgram.env 20).procs rDown ∧ recProgram.calls 1 rDown ([.num .integer 0, .char 120].map Val.trim) σ τ ∧
    [Val.num .integer 0, .char 120].map Val.ty = rDown.parms ∧
    (∀ v ∈ [Val.num .integer 0, .char 120], v.Ranged) ∧
    (codeP (fun _ => (0, 0)) 0 recProgram recBody)[k]? = some (ins .pcal (rDown.level + 1 : Nat) rDown.label) ∧
    (recProgram.env 20).In recState m ∧
    (recProgram.env 20).Has idleLib (recProgram.procs.ro 0 ++ recBody.ro 0) recState m σ ∧
    recState.sp.toNat % 2 = 0 ∧ m + 2 ≤ recState.top ∧
    (∀ i v, [Val.num .integer 0, .char 120][i]? = some v → recState.mem (recState.top - 2 + 1 + i) = v.word) ∧
    RoomFor recState (callRoom recProgram.decls 1) := by
  obtain ⟨τ, h, _⟩ := rec_call0 ⟨fun _ => none, none, none⟩
  have hl : recProgram.procs.toks.length + recBody.toks.length ≤ 65534 := by decide
  refine ⟨((codeP (fun _ => (0, 0)) 0 recProgram recBody).findIdx fun i => i = ins .pcal (rDown.level + 1 : Nat) rDown.label),
    13, _, τ, rec_ok, by decide, hl, Source.env_ok (by decide) (by decide) (Source.procs_ok rec_ok hl 20), Source.sees _ _,
    ⟨[68, 111, 119, 110], by decide⟩, h, by decide, ?_, by decide +kernel,
    Source.env_in (s := recState) (by decide) (by decide) (by decide) (by decide) (by decide) (by decide), ⟨?_, ?_, fun _ h => by cases h⟩, by decide, by decide, ?_, ⟨by decide, by decide⟩⟩
  · intro v hv
    simp only [List.mem_cons, List.not_mem_nil, or_false] at hv
    rcases hv with rfl | rfl <;> simp [Val.Ranged, wrap]
  · intro x v _ hv; cases hv
  · intro text ht; cases ht
  · intro i v hv
    match i, hv with
    | 0, hv => cases hv; decide
    | 1, hv => cases hv; decide

/-- The text of `j : 2` and of `c`. -/
theorem rec_texts {σ : Store} {d : Nat} (h : σ rJ = some (.num .integer d)) (hd : d ≤ 9) (hc : σ rC = some (.char 120)) :
    Texts σ [.val (eVar rJ) (some (eInt 2)), .val (eVar rC) none] ([32, BitVec.ofNat 8 (48 + d)] ++ ([120] ++ [])) := by
  refine .cons ⟨.num .integer d, 2, ?_, ⟨rfl, by decide⟩, [BitVec.ofNat 8 (48 + d)], .inl ⟨d, rfl, ?_⟩, 1, rfl, rfl⟩
    (.cons ⟨.char 120, 0, ?_, rfl, ?_⟩ .nil)
  · simp only [E.eval, eVar, h]
  · refine ⟨?_, by simp, by simp, ?_⟩
    · intro b hb; rcases List.mem_singleton.1 hb with rfl; simp; omega
    · simp; omega
  · simp only [E.eval, eVar, hc]
  · exact ⟨0, rfl, rfl⟩

/-- The meaning of the program: it writes what it writes when it is executed. -/
example (σ : Store) (old : List Byte) (inp : Option Inp) :
    ∃ τ left, Exec (recProgram.calls 3) (.list recBody) ⟨σ, some old, inp⟩ .normal
      ⟨τ, some (old ++ recWritten), left⟩ := by
  have hshow : ∀ (σ : State) (d n : Nat) (old : List Byte), (d = 1 ∧ n = 0) ∨ (d = 2 ∧ n = 1) → σ.out = some old →
      σ.store rC = some (.char 120) → σ.store rN = some (.num .integer n) → σ.store rK = some (.num .integer d) →
      ∃ τ, recProgram.calls 1 rShow [.num .integer d] σ τ ∧ τ.store rN = some (.num .integer (n + d)) ∧
        τ.out = some (old ++ [32, BitVec.ofNat 8 (48 + d), 120]) ∧ τ.store rC = some (.char 120) ∧
        τ.store rK = some (.num .integer d) := by
    intro σ d n old hd ho hc hN hK
    refine ⟨_, ⟨_, _, rfl, .cons (.write ho (rec_texts (d := d) rfl (by omega) hc)) (.one (.assign (v := .num .integer (n + d)) ?_)),
      rfl⟩, rfl, ?_, hc, hK⟩
    · have hN' : (σ.enter rShow [Val.num .integer d]).store rN = some (.num .integer n) := hN
      have hK' : (σ.enter rShow [Val.num .integer d]).store rK = some (.num .integer d) := hK
      simp only [E.eval, eSum, hN', hK']
      rcases hd with ⟨rfl, rfl⟩ | ⟨rfl, rfl⟩ <;> rfl
    · simp [State.leave, State.set]
  have hdown : ∀ (σ : State) (d n : Nat) (old : List Byte) (υ : State), (d = 1 ∧ n = 0) ∨ (d = 2 ∧ n = 1) → ∀ e : Nat,
      recProgram.calls (e + 1) rDown [.num .integer (d - 1 : Nat), .char 120]
        ((σ.enter rDown [.num .integer d, .char 120]).set rM (.num .integer d)) υ → υ.out = some old →
      υ.store rN = some (.num .integer n) →
      ∃ τ, recProgram.calls (e + 2) rDown [.num .integer d, .char 120] σ τ ∧ τ.store rN = some (.num .integer (n + d)) ∧
        τ.out = some (old ++ [32, BitVec.ofNat 8 (48 + d), 120]) := by
    intro σ d n old υ hd e hc ho hN
    have keep : ∀ x : Variable, x.level = 1 → υ.store x =
        ((σ.enter rDown [.num .integer d, .char 120]).set rM (.num .integer d)).store x := by
      obtain ⟨_, _, _, _, rfl⟩ := hc
      intro x hx
      exact if_neg (by rw [hx]; decide)
    obtain ⟨τ, h1, h2, h3, -⟩ := hshow υ d n old hd ho (keep rC rfl) hN (keep rK rfl)
    refine ⟨_, ⟨_, τ, rfl, .cons (.assign (v := .num .integer d) rfl) (.one (.thenTrue ?_ (.block (.cons (.call (vs := [.num .integer (d - 1 : Nat), .char 120]) ?_ hc)
      (.one (.call (vs := [.num .integer d]) ?_ (calls_mono _ (by omega) _ _ _ _ h1))))))), rfl⟩, h2, h3⟩
    · rcases hd with ⟨rfl, rfl⟩ | ⟨rfl, rfl⟩ <;> rfl
    · rcases hd with ⟨rfl, rfl⟩ | ⟨rfl, rfl⟩ <;> rfl
    · have hm : υ.store rM = some (.num .integer d) := keep rM rfl
      simp only [argVals, rShow, eVar, E.eval, hm]
      rcases hd with ⟨rfl, rfl⟩ | ⟨rfl, rfl⟩ <;> rfl
  obtain ⟨τ0, h0, rfl⟩ := rec_call0 ((State.enter ((State.enter ⟨σ.set rN (.num .integer 0), some old, inp⟩ rDown [.num .integer 2, .char 120]).set rM
    (.num .integer 2)) rDown [.num .integer 1, .char 120]).set rM (.num .integer 1))
  obtain ⟨τ1, h1, k1, o1⟩ := hdown _ 1 0 old _ (.inl ⟨rfl, rfl⟩) 0 h0 rfl rfl
  obtain ⟨τ2, h2, k2, o2⟩ := hdown _ 2 1 _ _ (.inr ⟨rfl, rfl⟩) 1 h1 o1 k1
  have ht : Texts τ2.store [.val (eVar rN) none] ([51] ++ []) := by
    refine .cons ⟨.num .integer 3, 0, ?_, rfl, [51], .inl ⟨3, rfl, ?_⟩, 0, rfl, rfl⟩ .nil
    · simp only [E.eval, eVar, k2]; rfl
    · refine ⟨?_, by simp, by simp, by decide⟩
      intro b hb; rcases List.mem_singleton.1 hb with rfl; decide
  have : Exec (recProgram.calls 3) (.list recBody) ⟨σ, some old, inp⟩ .normal _ :=
    .cons (.assign (v := .num .integer 0) rfl) (.cons (.call (vs := [.num .integer 2, .char 120]) rfl h2) (.one (.write o2 ht)))
  exact ⟨_, _, by simpa [recWritten] using this⟩

/-! ### Violations -/

/-- The tokens of `program p; … begin … end.` -/
def withDecls (decls body : List Lx) : List Lx :=
  [.name [112], .tk .semi] ++ decls ++ [.tk .begin_] ++ body ++ [.tk .end_, .tk .period]

/-- `procedure q …; begin end;`, with the tokens between the name and the BEGIN. -/
def procQ (l : List Lx) : List Lx := [.tk (.other 0x9c), .name [113]] ++ l ++ [.tk .begin_, .tk .end_, .tk .semi]

/-- `x : integer;`, `y : integer;` -/
def declX : List Lx := [.name [120], .tk .colon, .name integerName, .tk .semi]
@[inherit_doc declX] def declY : List Lx := [.name [121], .tk .colon, .name integerName, .tk .semi]

/-- The number of errors the compiler reports; whether its behaviour is undefined. -/
def errorsIn (toks : List Lx) : Option Nat :=
  match program (fun _ => (0, 0)) 0 60 toks with
  | .ok (some o) => some o.errs
  | _ => none
@[inherit_doc errorsIn] def undefinedFor (toks : List Lx) : Bool :=
  match program (fun _ => (0, 0)) 0 60 toks with
  | .ub => true
  | _ => false

/-- The compiler in `var …` of a procedure, if the program has a variable `x : integer`: the next name
behind the declarations it takes, and the number of errors reported before the statements. -/
def localsOf (decls : List Lx) : Option (Lx × Nat) :=
  match variablePart 1 60 ⟨decls ++ [.tk .begin_, .tk .end_], .other 0xa9, none, .var_,
      primed ++ [([120], .var ⟨.int, 0, 4⟩)], 0, 0⟩ with
  | .ok (some d) => some (d.last, (blockStart 1 0 d ⟨[], [], 0, 1, 0, 0, 0, []⟩).errs)
  | _ => none

/-- Violation of C72: a local variable cannot always have the name of a variable around the procedure.
With `var x : integer` in the program, a procedure may begin with `var x : integer; y : integer;`, but with
`var y : integer; x : integer;` the declarations end before `x`, and the compiler reports that BEGIN is
missing.  (The name behind a semicolon is looked up in the whole symbol table.) -/
theorem C72_violation_hide :
    errorsIn (withDecls ([.var_] ++ declX ++ procQ (.tk .semi :: .var_ :: (declX ++ declY))) []) = some 0 ∧
    localsOf (declX ++ declY) = some (.tk .begin_, 0) ∧ localsOf (declY ++ declX) = some (.name [120], 1) := by
  decide +kernel

/-- Violation of C72: a local variable with the name of a parameter is accepted, `procedure q(x : integer);
var x : integer;`. -/
theorem C72_violation_same_name :
    errorsIn (withDecls (procQ ([.tk .lparen, .name [120], .tk .colon, .name integerName, .tk .rparen, .tk .semi,
      .var_] ++ declX)) []) = some 0 := by decide +kernel

/-- Violation of C72: two parameters of the same name, `procedure q(x, x : integer)`, a parameter without type,
`procedure q(x)`, or with an unknown type, `procedure q(x : z)`, are not reported; the compiler uses a pointer
that has not been set or is null. -/
theorem C72_violation_parameters :
    undefinedFor (withDecls (procQ [.tk .lparen, .name [120], .tk .comma, .name [120], .tk .colon,
      .name integerName, .tk .rparen, .tk .semi]) []) = true ∧
    undefinedFor (withDecls (procQ [.tk .lparen, .name [120], .tk .rparen, .tk .semi]) []) = true ∧
    undefinedFor (withDecls (procQ [.tk .lparen, .name [120], .tk .colon, .name [122], .tk .rparen, .tk .semi]) []) =
      true := by decide +kernel

/-- Violation of C72: empty parentheses are accepted, `q()`. -/
theorem C72_violation_parentheses :
    errorsIn (withDecls (procQ [.tk .semi]) [.name [113], .tk .lparen, .tk .rparen]) = some 0 := by decide +kernel

/-- A call with an argument too many, or without the argument that is needed, is reported. -/
example :
    errorsIn (withDecls (procQ [.tk .lparen, .name [120], .tk .colon, .name integerName, .tk .rparen, .tk .semi])
      [.name [113], .tk .lparen, .tk (.int 1), .tk .comma, .tk (.int 2), .tk .rparen]) = some 3 ∧
    errorsIn (withDecls (procQ [.tk .lparen, .name [120], .tk .colon, .name integerName, .tk .rparen, .tk .semi])
      [.name [113]]) = some 3 := by decide +kernel

end Pas.Src
