import Verif.Lemmas.ForeverRun
import Verif.Lemmas.ForeverCases
import Verif.Props.Program
import Verif.Props.Library
import Verif.Props.Write

/-! Property C83: programs that do not end. -/
namespace Pas.Src
open Pas.Spec Pas.Comp Pas.Link

/-! ### The meaning of programs -/

/-- C83: every execution of statements either ends, or goes on forever, or goes wrong, whatever the procedures do. -/
theorem C83_three_cases (P : Effects) (N : Endless) (c : Cmd) (σ : State) :
    (∃ o τ, Exec P c σ o τ) ∨ Forever P N c σ ∨ Wrong P N c σ := by
  rcases threefold (P := P) (N := N) c σ with h | h | h
  · exact .inl h
  · exact .inr (.inr h)
  · exact .inr (.inl ⟨Neither P N, h, neither_goesOn⟩)

/-- C83: only one of the three is the case for the statements of a program, with the meaning of its procedures. -/
theorem C83_one_case (D : Decls) (d : Nat) (c : Cmd) (σ : State) :
    ((∃ o τ, Exec (Calls D d) c σ o τ) → ¬ Forever (Calls D d) (CallsForever D d) c σ ∧
      ¬ Wrong (Calls D d) (CallsForever D d) c σ) ∧
    (Forever (Calls D d) (CallsForever D d) c σ → ¬ Wrong (Calls D d) (CallsForever D d) c σ) := by
  refine ⟨fun ⟨o, τ, h⟩ => ⟨fun ⟨X, hx, hX⟩ => ?_, fun hw => ?_⟩, fun ⟨X, hx, hX⟩ hw => ?_⟩
  · exact not_ends (calls_deterministic D d) (calls_ends_not D d) hX h hx
  · exact (wrong_only (calls_deterministic D d) (calls_ends_not D d)
      (X := Neither (Calls D d) (CallsForever D d)) neither_goesOn hw).2 o τ h
  · exact (wrong_only (calls_deterministic D d) (calls_ends_not D d) hX hw).1 hx

/-! ### Programs on the machine -/

/-- C83 (partial: the programs of `C52_program_partial`, and calls nested at most `d` deep).
A program whose statements go on forever goes on forever in the machine: after any number of
instructions it has not stopped, and there was no error.  And whatever text the statements have written at some moment
of their execution, which need not end, there is a number of instructions after which this text is the
standard output. -/
theorem C83_program_partial {P : Source} {b : S .list} (line : Nat → Byte × Word) (pad : Byte) (ok : P.Ok b)
    (hs : P.size ≤ 32768) (hl : P.procs.toks.length + b.toks.length ≤ 65534) (hd : b.need 0 ≤ 16384)
    (name : List Byte) {files : List (List Byte)} (hf : files ≠ []) :
    ∃ N o, (∀ n, N ≤ n → build line pad name files n P.toks = .ok (some o)) ∧
      (o.prog.length ≤ 65535 →
        ∀ (strSize stkSize hpSize : Word) (m0 : Nat → Word) (host : HostFile → Option (List Byte)),
          strSize.toNat % 2 = 0 →
          even strSize.toNat + even o.rodata.length + even stkSize.toNat + even hpSize.toNat < 65536 →
          10 ≤ stkSize.toNat →
          (hpSize.toNat ≤ 32 ∨ (even strSize.toNat + even o.rodata.length + even stkSize.toNat) % 16 = 0) →
          ∃ s, startUp (attrOf o strSize stkSize hpSize) m0 host = .ok s ∧
            ∀ lib : Lib, lib.NoPc → ∀ d, 10 + even P.size + 2 * b.need (callRoom P.decls d) + 4 ≤ stkSize.toNat →
              ∀ σ, (P.env s.spb.toNat).Holds s.mem σ.store →
              (∀ text, σ.out = some text →
                text = (host .stdout).getD [] ∧ ∃ fpu h, lib.sysIo = SysIo.sysIo fpu h) →
              (∀ i, σ.inp = some i →
                i = ⟨false, (host .stdin).getD []⟩ ∧ ∃ fpu h, lib.sysIo = SysIo.sysIo fpu h) →
              (Forever (P.calls d) (CallsForever (declIn P.decls) d) (.list b) σ →
                ∀ n, ∃ t, runFor lib o.prog (maxPc o) n s = .ok (eNOERROR, t)) ∧
              ∀ text k, WritesIn (P.calls d) (CallsWrite (declIn P.decls) text d) text k (.list b) σ →
                ∃ n t, runFor lib o.prog (maxPc o) n s = .ok (eNOERROR, t) ∧ fileText t .stdout = text) := by
  have hroom : P.room = even P.size := rfl
  obtain ⟨N, o, hN, hoe, hor, hrun⟩ := build_ok line pad ok hs hl hd name hf
  refine ⟨N, o, hN, fun hlen strSize stkSize hpSize m0 host h2 hsum hstk hheap => ?_⟩
  have hb : heapBase (attrOf o strSize stkSize hpSize) =
      even strSize.toNat + even o.rodata.length + even stkSize.toNat := rfl
  obtain ⟨s, hst, hm, hcon, hfresh, hstd⟩ := C10_startup_partial (attrOf o strSize stkSize hpSize) m0 host h2
    (by rw [hb]; exact hsum) hstk (by rw [hb]; exact hheap)
  refine ⟨s, hst, fun lib hlib d hroomd σ hh hout hinp => ?_⟩
  have e1 := hm.frame
  have e2 := hm.aligned
  have e3 := hm.stack
  have e4 := hm.heap
  have e5 := hm.total
  have e6 := hm.constants
  rw [hb] at e5
  have e3 : s.fp.toNat + stkSize.toNat ≤ s.hpb.toNat := e3
  have e5 : 2 * s.words =
    even strSize.toNat + even o.rodata.length + even stkSize.toNat + even hpSize.toNat := e5
  have hro : (attrOf o strSize stkSize hpSize).rodata = P.procs.ro pad ++ b.ro pad := hor
  rw [hro] at e6
  have hcon' : ∀ j (h : j < (P.procs.ro pad ++ b.ro pad).length),
      byte s.mem (s.rop.toNat + j) = (P.procs.ro pad ++ b.ro pad)[j] := by
    intro j h
    have := hcon j (by rw [hro]; exact h)
    simpa only [hro] using this
  have hft : ∀ f, fileText s f = (host f).getD [] := by
    intro f; unfold fileText; rw [hstd.files]
  have hmax : o.prog.length ≤ (maxPc o).toNat := by
    rw [maxPc, BitVec.toNat_ofNat, Nat.mod_eq_of_lt (by omega)]; exact Nat.le_refl _
  have hpc : s = { s with pc := place (codeP line pad P b) (startP line pad P) } := by
    have h : s.pc = place (codeP line pad P b) (startP line pad P) := by
      rw [hm.entry]
      exact hoe
    rw [← h]
  refine ⟨fun hx => ?_, fun text k hx => ?_⟩
  · have hlong := codeP_long (line := line) (pad := pad) lib ok hs hl
      hm.stackEmpty (by omega) (by omega) (by omega) (by omega) (by rw [hfresh.1]; rfl) (by rw [hm.level]; decide) hx hh (by omega) hcon'
      (by
        intro text h
        obtain ⟨h1, h2⟩ := hout text h
        refine ⟨h2, ⟨by decide, _, hstd.output.1, rfl, .inr ⟨hstd.output.2.1, ?_⟩⟩, ?_⟩
        · rw [hft, h1]
        · rw [hft, h1])
      (by
        intro i h
        obtain ⟨h1, h2⟩ := hinp i h
        exact ⟨h2, ⟨by decide, hstd.input.2.1, _, hstd.input.1, rfl, rfl⟩, hstd.input.2.2.2, by rw [hft, h1]⟩)
    have := (hrun lib hlib (maxPc o) hmax _).2.1 hlong
    intro n
    rw [hpc]
    exact this n
  · obtain ⟨c', h1, h2⟩ := codeP_shows (line := line) (pad := pad) lib ok hs hl
      hm.stackEmpty (by omega) (by omega) (by omega) (by omega) (by rw [hfresh.1]; rfl) (by rw [hm.level]; decide) hx hh (by omega) hcon'
      (by
        intro text h
        obtain ⟨h1, h2⟩ := hout text h
        refine ⟨h2, ⟨by decide, _, hstd.output.1, rfl, .inr ⟨hstd.output.2.1, ?_⟩⟩, ?_⟩
        · rw [hft, h1]
        · rw [hft, h1])
      (by
        intro i h
        obtain ⟨h1, h2⟩ := hinp i h
        exact ⟨h2, ⟨by decide, hstd.input.2.1, _, hstd.input.1, rfl, rfl⟩, hstd.input.2.2.2, by rw [hft, h1]⟩)
    obtain ⟨n, hn⟩ := (hrun lib hlib (maxPc o) hmax _).2.2 _ h1
    refine ⟨n, { c'.2 with pc := place (codeP line pad P b) c'.1 }, ?_, h2⟩
    rw [hpc]
    exact hn

/-! ### The machine does nothing else -/

/-- After the end nothing changes. -/
theorem runFor_after {lib : Lib} {code : List Byte} {maxpc : Word} {e : Nat} (he : e ≠ eNOERROR) :
    ∀ {k : Nat} {s t : VM}, runFor lib code maxpc k s = .ok (e, t) → ∀ n,
      (k ≤ n → runFor lib code maxpc n s = .ok (e, t)) ∧
      (n < k → ∃ e' t', runFor lib code maxpc n s = .ok (e', t') ∧ (e' = eNOERROR ∨ (e', t') = (e, t)))
  | 0, s, t, h, n => by cases h; exact absurd rfl he
  | k + 1, s, t, h, 0 => ⟨fun h => by omega, fun _ => ⟨_, _, rfl, .inl rfl⟩⟩
  | k + 1, s, t, h, n + 1 => by
    rw [runFor] at h ⊢
    cases hx : execute lib code maxpc s with
    | ub => rw [hx] at h; cases h
    | hang => rw [hx] at h; cases h
    | ok r =>
      obtain ⟨e1, s1⟩ := r
      rw [hx] at h
      simp only [Res.ok_bind] at h ⊢
      by_cases h1 : e1 = eNOERROR
      · rw [if_neg (by simp [h1])] at h ⊢
        have := runFor_after he h n
        exact ⟨fun hk => this.1 (by omega), fun hk => this.2 (by omega)⟩
      · rw [if_pos h1] at h ⊢
        exact ⟨fun _ => h, fun _ => ⟨_, _, rfl, .inr (by injection h)⟩⟩

/-- C83 (partial, see `C83_program_partial`).  The routines of the code.  If the statements of the program do not go
wrong then the machine does what they do and nothing else: after any number of instructions there was no error and
nothing undefined, either it still runs or it has stopped with `eEXIT`; if it has stopped then the statements end,
the memory holds the values of the state in which they end, and the standard output its text; and it stops only if
they end: it runs on for any number of instructions exactly if they go on forever.  Whatever they have written at some
moment is the standard output after some number of instructions. -/
theorem C83_agrees_partial {P : Source} {b : S .list} (line : Nat → Byte × Word) (pad : Byte) (ok : P.Ok b)
    (hs : P.size ≤ 32768) (hl : P.procs.toks.length + b.toks.length ≤ 65534) (hd : b.need 0 ≤ 16384)
    (name : List Byte) {files : List (List Byte)} (hf : files ≠ []) :
    ∃ N o, (∀ n, N ≤ n → build line pad name files n P.toks = .ok (some o)) ∧
      (o.prog.length ≤ 65535 →
        ∀ (strSize stkSize hpSize : Word) (m0 : Nat → Word) (host : HostFile → Option (List Byte)),
          strSize.toNat % 2 = 0 →
          even strSize.toNat + even o.rodata.length + even stkSize.toNat + even hpSize.toNat < 65536 →
          10 ≤ stkSize.toNat →
          (hpSize.toNat ≤ 32 ∨ (even strSize.toNat + even o.rodata.length + even stkSize.toNat) % 16 = 0) →
          ∃ s, startUp (attrOf o strSize stkSize hpSize) m0 host = .ok s ∧
            ∀ p : Platform, OrdinaryPlatform p →
              ∀ d, 10 + even P.size + 2 * b.need (callRoom P.decls d) + 4 ≤ stkSize.toNat →
              ∀ σ, (P.env s.spb.toNat).Holds s.mem σ.store →
              (∀ text, σ.out = some text → text = (host .stdout).getD []) →
              (∀ i, σ.inp = some i → i = ⟨false, (host .stdin).getD []⟩) →
              (∀ text k, WritesIn (P.calls d) (CallsWrite (declIn P.decls) text d) text k (.list b) σ →
                ∃ n t, runFor (machine p) o.prog (maxPc o) n s = .ok (eNOERROR, t) ∧ fileText t .stdout = text) ∧
              (¬ Wrong (P.calls d) (CallsForever (declIn P.decls) d) (.list b) σ →
              (∀ n, ∃ e t, runFor (machine p) o.prog (maxPc o) n s = .ok (e, t) ∧
                (e = eNOERROR ∨ e = eEXIT ∧ ∃ τ, Exec (P.calls d) (.list b) σ .normal τ ∧
                  (P.env s.spb.toNat).Holds t.mem τ.store ∧
                  (∀ text, τ.out = some text → fileText t .stdout = text) ∧
                  (σ.out = none → σ.inp = none → t.io = s.io) ∧ ∀ f, f ≠ .stdout → t.io.files f = host f)) ∧
              ((∀ n, ∃ t, runFor (machine p) o.prog (maxPc o) n s = .ok (eNOERROR, t)) ↔
                Forever (P.calls d) (CallsForever (declIn P.decls) d) (.list b) σ))) := by
  obtain ⟨N, o, h1, h2⟩ := C52_machine_partial line pad ok hs hl hd name hf
  obtain ⟨N', o', h1', h2'⟩ := C83_program_partial line pad ok hs hl hd name hf
  have e : o' = o := by
    have a := h1 (max N N') (Nat.le_max_left ..)
    rw [h1' (max N N') (Nat.le_max_right ..)] at a
    injection a with a; injection a
  subst e
  refine ⟨N, o', h1, fun hlen strSize stkSize hpSize m0 host a1 a2 a3 a4 => ?_⟩
  obtain ⟨s, hst, h⟩ := h2 hlen strSize stkSize hpSize m0 host a1 a2 a3 a4
  obtain ⟨s', hst', h'⟩ := h2' hlen strSize stkSize hpSize m0 host a1 a2 a3 a4
  rw [hst] at hst'
  injection hst' with e
  subst e
  refine ⟨s, hst, fun p hp d hroom σ hh ho hi => ?_⟩
  obtain ⟨hF, hW⟩ := (h' _ (machine_noPc p hp) d hroom σ hh (fun text e => ⟨ho text e, _, _, rfl⟩)
    fun i e => ⟨hi i e, _, _, rfl⟩)
  refine ⟨hW, fun hw => ?_⟩
  rcases C83_three_cases (P.calls d) (CallsForever (declIn P.decls) d) (.list b) σ with ⟨oc, τ, hx⟩ | hx | hx
  · have hn : oc = .normal := by
      have := exec_ok (Γ := P.env 0) hx false false (Source.stmts_ok ok 0)
      cases oc with
      | normal => rfl
      | break_ => cases this.1 rfl
      | continue_ => cases this.2 rfl
    subst hn
    obtain ⟨k, t, hr, hres⟩ := h p hp d hroom σ τ hx hh ho hi
    have ha := runFor_after (by decide) hr
    refine ⟨fun n => ?_, fun hall => ?_, fun hf => ?_⟩
    · rcases Nat.lt_or_ge n k with hk | hk
      · obtain ⟨e', t', g1, g2⟩ := (ha n).2 hk
        refine ⟨e', t', g1, ?_⟩
        rcases g2 with g2 | g2
        · exact .inl g2
        · cases g2; exact .inr ⟨rfl, τ, hx, hres⟩
      · exact ⟨_, _, (ha n).1 hk, .inr ⟨rfl, τ, hx, hres⟩⟩
    · obtain ⟨t', ht'⟩ := hall k
      rw [hr] at ht'
      injection ht' with ht'
      injection ht' with ht' _
      exact absurd ht' (by decide)
    · exact absurd hf ((C83_one_case (declIn P.decls) d (.list b) σ).1 ⟨_, τ, hx⟩).1
  · refine ⟨fun n => ?_, fun _ => hx, hF⟩
    obtain ⟨t, ht⟩ := hF hx n
    exact ⟨_, t, ht, .inl rfl⟩
  · exact absurd hx hw

/-! ### An example -/

/-- `while n = 1 do write('ab')` -/
def endlessLoop : S .stmt :=
  .while_ (.rel (.term none (.factor (.var wN))) .eq (.term none (.factor (.int 1))))
    (.write false false (.str [97, 98]) [])

/-- `n := 1; while n = 1 do write('ab')` -/
def endlessBody : S .list := .cons (.assign wN (.simple (.term none (.factor (.int 1))))) (.one endlessLoop)

/-- `program e (output); var n : integer; begin … end.` with the statements above. -/
def endlessProgram : Source where
  name := [101]
  files := [outputName]
  groups := [⟨[110], [], [105, 110, 116, 101, 103, 101, 114], .num .integer, none, none⟩]
  body := [.name [110], .tk .assign, .tk (.int 1), .tk .semi,
    .tk .while_, .name [110], .tk .eq, .tk (.int 1), .tk .do_,
    .tk .write_, .tk .lparen, .tk (.str [97, 98]), .tk .rparen]

theorem endless_ok : endlessProgram.Ok endlessBody := by
  let sc : Scope := [] ++ ([] ++ locals 0 endlessProgram.consts endlessProgram.groups ++ Dcl.heads 0 1 .nil)
  have hd : sc.Pairwise fun a b => ¬ SameName a.1 b.1 := by decide
  have n : Scope.vars sc wN := ⟨([110], .var _), by decide, List.mem_singleton.2 rfl⟩
  have sn : ∀ m, SameName [110] m → Spells sc (.name m) wN.tk :=
    fun m h => .var (means_of_mem hd (n := [110]) (by decide) h)
  refine ⟨?_, ?_, ⟨?_, ?_, trivial, by decide, ?_, no_bounds (by decide), ?_, ?_, ?_⟩, trivial⟩
  · exact ⟨by unfold Plain; decide +kernel, by decide +kernel⟩
  · decide
  · unfold New Plain; decide +kernel
  · exact hd
  · decide
  · decide
  · repeat' apply pointwise_cons
    all_goals first
      | exact pointwise_nil
      | exact .other (by simp) (by simp) (by simp) (by simp) (by simp)
      | exact sn _ (by decide)
      | exact .output (by decide)
  · refine ⟨⟨n, ?_, by decide⟩, ⟨?_, ?_⟩⟩
    · intro y hy; simp [E.vars] at hy
    · exact ⟨fun y hy => by simp [E.vars] at hy; subst hy; exact n, by decide⟩
    · intro j hj
      rcases List.mem_singleton.1 hj with rfl
      exact ⟨by decide, by decide⟩

/-- The text `ab`, repeated. -/
def abs : Nat → List Byte
  | 0 => []
  | n + 1 => [97, 98] ++ abs n

/-- The condition of the loop. -/
theorem endless_cond {σ : Store} (h : σ wN = some (.num .integer 1)) :
    (E.rel (.term none (.factor (.var wN))) .eq (.term none (.factor (.int 1)))).eval σ (.a .bool) = some (.bool true) := by
  simp only [E.eval, h]; rfl

theorem endless_round {P : Effects} {σ : Store} {old : List Byte} {inp : Option Inp} :
    Exec P (.stmt (.write false false (.str [97, 98]) [])) ⟨σ, some old, inp⟩ .normal ⟨σ, some (old ++ [97, 98]), inp⟩ := by
  have : Exec P (.stmt (.write false false (.str [97, 98]) [])) ⟨σ, some old, inp⟩ .normal _ := .write rfl (.cons rfl .nil)
  exact cast (by simp) this

theorem endless_writes {P : Effects} {W : Endless} {text : List Byte} {σ : Store} (h : σ wN = some (.num .integer 1))
    {inp : Option Inp} : ∀ k old, text = old ++ abs k → WritesIn P W text k (.stmt endlessLoop) ⟨σ, some old, inp⟩
  | 0, old, e => by subst e; simp [abs, WritesIn]
  | k + 1, old, e => .inr (.whileNext (o := .normal) (endless_cond h) endless_round (by decide)
      (endless_writes h k (old ++ [97, 98]) (by rw [e, abs]; simp)))

/-- The hypotheses of `C83_program_partial` and `C83_agrees_partial` are met by a program with a loop that does not
end: it goes on forever, and it writes any number of times `ab`. -/
example : endlessProgram.Ok endlessBody ∧ endlessProgram.size ≤ 32768 ∧
    endlessProgram.procs.toks.length + endlessBody.toks.length ≤ 65534 ∧ endlessBody.need 0 ≤ 16384 ∧
    OrdinaryPlatform barePlatform ∧
    ∀ σ old inp, Forever (endlessProgram.calls 0) (CallsForever (declIn endlessProgram.decls) 0) (.list endlessBody)
        ⟨σ, some old, inp⟩ ∧
      ¬ Wrong (endlessProgram.calls 0) (CallsForever (declIn endlessProgram.decls) 0) (.list endlessBody)
        ⟨σ, some old, inp⟩ ∧
      ∀ k, WritesIn (endlessProgram.calls 0) (CallsWrite (declIn endlessProgram.decls) (old ++ abs k) 0)
        (old ++ abs k) (k + 2) (.list endlessBody) ⟨σ, some old, inp⟩ := by
  refine ⟨endless_ok, by decide, by decide, by decide, barePlatform_ok, fun σ old inp => ?_⟩
  have hF : Forever (endlessProgram.calls 0) (CallsForever (declIn endlessProgram.decls) 0) (.list endlessBody)
      ⟨σ, some old, inp⟩ := by
    refine ⟨fun c υ => (∃ old, υ.out = some old) ∧ (c = .list endlessBody ∨
      (c = .list (.one endlessLoop) ∨ c = .stmt endlessLoop) ∧ υ.store wN = some (.num .integer 1)),
      ⟨⟨_, rfl⟩, .inl rfl⟩, fun c υ h => ?_⟩
    obtain ⟨⟨old, ho⟩, rfl | ⟨rfl | rfl, hn⟩⟩ := h
    · exact .consNext (.assign (v := .num .integer 1) rfl) ⟨⟨old, ho⟩, .inr ⟨.inl rfl, rfl⟩⟩
    · exact .one ⟨⟨old, ho⟩, .inr ⟨.inr rfl, hn⟩⟩
    · obtain ⟨st, out, inp⟩ := υ
      cases ho
      exact .whileNext (o := .normal) (endless_cond hn) endless_round (by decide) ⟨⟨_, rfl⟩, .inr ⟨.inr rfl, hn⟩⟩
  refine ⟨hF, (C83_one_case _ 0 _ _).2 hF, fun k => ?_⟩
  exact .inr (.consNext (.assign (v := .num .integer 1) rfl) (.inr (.one
    (endless_writes (σ := (State.set ⟨σ, some old, inp⟩ wN (.num .integer 1)).store) rfl k old rfl))))

/-- Builds a program and runs it for `n` instructions as `buildAndWrite` does, and shows whether it has
stopped and what it has written. -/
def buildAndWatch (toks : List Lx) (n : Nat) : Option (Bool × List Byte) :=
  match build (fun _ => (0, 0)) 0 [112] [[112]] 40 toks with
  | .ok (some o) => match startUp (attrOf o 16 100 32) (fun _ => 0) with
    | .ok s => match runFor (machine barePlatform) o.prog (maxPc o) n s with
      | .ok (e, t) => some (e ≠ eNOERROR, fileText t .stdout)
      | _ => none
    | _ => none
  | _ => none

/-- The example, executed for some time. -/
example : buildAndWatch endlessProgram.toks 60 = some (false, abs 4) := by decide +kernel

end Pas.Src
