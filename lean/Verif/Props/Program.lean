import Verif.Lemmas.Toolchain
import Verif.Props.Encoding

/-! Property C52: programs from their tokens to the end of their execution; property C57: the
declaration of variables. -/
namespace Pas.Src
open Pas.Spec Pas.Comp Pas.Link

/-- C52 (partial: programs with procedures, value parameters and variables of the ordinal types of at most
16 bits; the source is given as tokens, and the optimizer does nothing but finalize).
Every correct program is accepted by the tools.  Loaded into a machine with a stack that is large
enough, it is executed to its end as the meaning of its statements says: whenever they take the state
`σ` to the state `τ`, with calls of procedures nested at most `d` deep, and the memory holds the values of `σ` at the start, the machine stops with `eEXIT`,
the memory holds the values of `τ`, and the standard output contains the text of `τ`.  Only programs
that write need a standard output (`σ.out`), only programs that read a standard input (`σ.inp`), and only these
the routines for files; no file but the standard output is changed.
Programs that do not end are in C83. -/
theorem C52_program_partial {P : Source} {b : S .list} (line : Nat → Byte × Word) (pad : Byte) (ok : P.Ok b)
    (hs : P.size ≤ 32768) (hl : P.procs.toks.length + b.toks.length ≤ 65534) (hd : b.need 0 ≤ 16384)
    (name : List Byte) {files : List (List Byte)} (hf : files ≠ []) :
    ∃ N o, (∀ n, N ≤ n → build line pad name files n P.toks = .ok (some o)) ∧
      (o.prog.length ≤ 65535 →
        ∀ (strSize stkSize hpSize : Word) (m0 : Nat → Word) (host : HostFile → Option (List Byte)),
          strSize.toNat % 2 = 0 →
          even strSize.toNat + even o.rodata.length + even stkSize.toNat + even hpSize.toNat < 65536 →
          10 ≤ stkSize.toNat →
          (hpSize.toNat ≤ 32 ∨ (even strSize.toNat + even o.rodata.length + even stkSize.toNat) % 16 = 0) →
          ∃ s, startUp (attrOf o strSize stkSize hpSize) m0 host = .ok s ∧
            ∀ lib : Lib, lib.NoPc → ∀ d, 10 + even P.size + 2 * b.need (callRoom P.decls d) + 4 ≤ stkSize.toNat →
              ∀ σ τ, Exec (P.calls d) (.list b) σ .normal τ →
              (P.env s.spb.toNat).Holds s.mem σ.store →
              (∀ text, σ.out = some text →
                text = (host .stdout).getD [] ∧ ∃ fpu h, lib.sysIo = SysIo.sysIo fpu h) →
              (∀ i, σ.inp = some i →
                i = ⟨false, (host .stdin).getD []⟩ ∧ ∃ fpu h, lib.sysIo = SysIo.sysIo fpu h) →
              ∃ n t, runFor lib o.prog (maxPc o) n s = .ok (eEXIT, t) ∧
                (P.env s.spb.toNat).Holds t.mem τ.store ∧
                (∀ text, τ.out = some text → fileText t .stdout = text) ∧
                (σ.out = none → σ.inp = none → t.io = s.io) ∧ ∀ f, f ≠ .stdout → t.io.files f = host f) := by
  have hroom : P.room = even P.size := rfl
  obtain ⟨N, o, hN, hoe, hor, hrun⟩ := build_ok line pad ok hs hl hd name hf
  refine ⟨N, o, hN, fun hlen strSize stkSize hpSize m0 host h2 hsum hstk hheap => ?_⟩
  have hb : heapBase (attrOf o strSize stkSize hpSize) =
      even strSize.toNat + even o.rodata.length + even stkSize.toNat := rfl
  obtain ⟨s, hst, hm, hcon, hfresh, hstd⟩ := C10_startup_partial (attrOf o strSize stkSize hpSize) m0 host h2
    (by rw [hb]; exact hsum) hstk (by rw [hb]; exact hheap)
  refine ⟨s, hst, fun lib hlib d hroomd σ τ hx hh hout hinp => ?_⟩
  have e1 := hm.frame
  have e2 := hm.aligned
  have e3 := hm.stack
  have e4 := hm.heap
  have e5 := hm.total
  have e6 := hm.constants
  rw [hb] at e5
  have e3 : s.fp.toNat + stkSize.toNat ≤ s.hpb.toNat := e3
  have e5 : 2 * s.words =
    even strSize.toNat + even o.rodata.length + even stkSize.toNat + even hpSize.toNat := e5
  have hro : (attrOf o strSize stkSize hpSize).rodata = P.procs.ro pad ++ b.ro pad := hor
  rw [hro] at e6
  have hcon' : ∀ j (h : j < (P.procs.ro pad ++ b.ro pad).length),
      byte s.mem (s.rop.toNat + j) = (P.procs.ro pad ++ b.ro pad)[j] := by
    intro j h
    have := hcon j (by rw [hro]; exact h)
    simpa only [hro] using this
  have hft : ∀ f, fileText s f = (host f).getD [] := by
    intro f; unfold fileText; rw [hstd.files]
  obtain ⟨k, t, hps, hat, hτ, hτo, hq, hfl⟩ := codeP_run (line := line) (pad := pad) lib ok hs hl
    hm.stackEmpty (by omega) (by omega) (by omega) (by omega) (by rw [hfresh.1]; rfl) (by rw [hm.level]; decide) hx hh (by omega) hcon'
    (by
      intro text h
      obtain ⟨h1, h2⟩ := hout text h
      refine ⟨h2, ⟨by decide, _, hstd.output.1, rfl, .inr ⟨hstd.output.2.1, ?_⟩⟩, ?_⟩
      · rw [hft, h1]
      · rw [hft, h1])
    (by
      intro i h
      obtain ⟨h1, h2⟩ := hinp i h
      exact ⟨h2, ⟨by decide, hstd.input.2.1, _, hstd.input.1, rfl, rfl⟩, hstd.input.2.2.2, by rw [hft, h1]⟩)
  have hmax : o.prog.length ≤ (maxPc o).toNat := by
    rw [maxPc, BitVec.toNat_ofNat, Nat.mod_eq_of_lt (by omega)]; exact Nat.le_refl _
  obtain ⟨n, hn⟩ := (hrun lib hlib (maxPc o) hmax _).1 _ hps hat
  have hpc : s = { s with pc := place (codeP line pad P b) (startP line pad P) } := by
    have h : s.pc = place (codeP line pad P b) (startP line pad P) := by
      rw [hm.entry]
      exact hoe
    rw [← h]
  refine ⟨n, { t with pc := place (codeP line pad P b) k }, ?_, hτ, hτo, hq, ?_⟩
  · rw [hpc]; exact hn
  · intro f h
    rw [← hstd.files]
    exact hfl f h

/-- A name declared once. -/
theorem means_of_mem {sc : Scope} (hd : sc.Pairwise fun a b => ¬ SameName a.1 b.1) {n m : List Byte} {e : Ent}
    (h : (n, e) ∈ sc) (hm : SameName n m) : Means sc m e := by
  obtain ⟨a, c, rfl⟩ := List.append_of_mem h
  refine ⟨a, n, c, rfl, hm, fun f hf h' => ?_⟩
  rw [List.pairwise_append, List.pairwise_cons] at hd
  exact hd.2.1.1 f hf (SameName.trans hm (SameName.symm h'))

/-- C57 (partial: programs, with constants that are ordinal, with variables of the ordinal types of at most 16 bits
and arrays of them with one range of integers).  The compiler
accepts any definitions of constants whose expressions have values, and any declarations of variables and arrays,
with new and different names, and goes on with what follows them.
Then every name of a constant, in upper or lower case, means a literal with the value of its expression, in which
the constants defined before may be used; every other name declared means its own variable, of the right type, or
its own array, with the right type of its
elements, lowest index and number of bytes from one element to the next; variables and arrays have their own bytes,
within the `dstack` bytes reserved and behind the four bytes of INPUT and OUTPUT, at even offsets unless
they have a single byte; and the predefined names mean what they meant before. -/
theorem C57_variables_partial (P : Source) (hname : New P.name)
    (hfiles : ∀ f ∈ P.files, SameName inputName f ∨ SameName outputName f)
    (hnew : ∀ n ∈ P.consts.map Cst.name ++ P.groups.flatMap Group.names, New n)
    (hdiff : (P.consts.map Cst.name ++ P.groups.flatMap Group.names).Pairwise fun n m => ¬ SameName n m)
    (hconsts : CstsRight [] P.consts) (hbounds : ∀ g ∈ P.groups, g.Bounds (locals 0 P.consts P.groups))
    (htypes : ∀ g ∈ P.groups, SameName g.ty.name g.written ∧
      ∀ low high, g.range = some (low, high) → low ≤ high ∧ high ≤ 32767) (hsize : P.size ≤ 65535) :
    ∃ (N : Nat) (d : DS) (off : List Byte → Int),
      (∀ n, N ≤ n → declarations n P.toks = .ok (some d)) ∧ d.errs = 0 ∧
      .tk d.tok :: d.rest = P.procs.toks ++ .tk .begin_ :: (P.body ++ [.tk .end_, .tk .period]) ∧
      (∀ c ∈ P.consts, ∀ m, SameName c.name m → (Lx.name m).tok d.tab 0 = c.value.literal) ∧
      (∀ g ∈ P.groups, ∀ n ∈ g.names,
        (∀ m, SameName n m → (Lx.name m).tok d.tab 0 = match g.range with
          | none => .var ⟨g.ty.kind, 0, off n⟩
          | some (low, _) => .arr ⟨g.ty.kind, 0, off n, [(low, g.ty.size)]⟩) ∧
        4 ≤ off n ∧ off n + (g.shape.bytes : Int) ≤ d.dstack ∧ (g.shape.bytes ≠ 1 → off n % 2 = 0) ∧
        ∀ g' ∈ P.groups, ∀ n' ∈ g'.names, n ≠ n' →
          off n + (g.shape.bytes : Int) ≤ off n' ∨ off n' + (g'.shape.bytes : Int) ≤ off n) ∧
      (∀ p ∈ predefined, ∀ n, SameName p n → (Lx.name n).tok d.tab 0 = (Lx.name n).tok primed 0) := by
  have hperm : (P.order.map (·.1)).Perm (P.groups.flatMap Group.names) := by
    unfold Source.order orderOf
    generalize P.groups = gs
    induction gs with
    | nil => exact .refl _
    | cons g gs ih =>
      rw [List.flatMap_cons, List.flatMap_cons, List.map_append, List.map_map]
      exact ((List.Perm.of_eq (List.map_id _)).trans g.names.reverse_perm).append ih
  have hperm' := hperm.append_left (P.consts.map Cst.name)
  have hn' : ∀ n ∈ P.consts.map Cst.name ++ P.order.map (·.1), New n := fun n h => hnew n (hperm'.mem_iff.1 h)
  have hd' : (P.consts.map Cst.name ++ P.order.map (·.1)).Pairwise fun n m => ¬ SameName n m :=
    (hperm'.pairwise_iff fun h h' => h (SameName.symm h')).2 hdiff
  have hn : ∀ n ∈ P.order.map (·.1), New n := fun n h => hn' n (List.mem_append_right _ h)
  have hd : (P.order.map (·.1)).Pairwise fun n m => ¬ SameName n m := (List.pairwise_append.1 hd').2.1
  obtain ⟨tk, r, hr, hg⟩ := procs_goon P.procs (P.body ++ [.tk .end_, .tk .period])
  obtain ⟨N, hN⟩ := declarations_ok hg hr hname hfiles hconsts hn' hd'
    (fun g hg => ⟨(htypes g hg).1, fun r hr => (htypes g hg).2 r.1 r.2 hr⟩) hbounds hsize
  have hL : (locals 0 P.consts P.groups).map (·.1) = P.consts.map Cst.name ++ P.order.map (·.1) := locals_names _ _ _
  have hv : AllNew (locals 0 P.consts P.groups) := fun e he => hn' _ (hL ▸ List.mem_map.2 ⟨e, he, rfl⟩)
  have hLd : (locals 0 P.consts P.groups).Pairwise fun a b => ¬ SameName a.1 b.1 := by
    rw [← hL, List.pairwise_map] at hd'
    exact hd'
  have hvd : P.vars.Pairwise fun a b => ¬ SameName a.1 b.1 := by
    rw [← placed_names P.order 0 4, List.pairwise_map] at hd
    exact hd
  have one : ∀ n x y, (n, x) ∈ P.vars → (n, y) ∈ P.vars → x = y := by
    intro n x y h1 h2
    rcases pairwise_cases hvd h1 h2 with h | h | h
    · injection h
    · exact absurd rfl h
    · exact absurd rfl h
  let off (n : List Byte) : Int :=
    open Classical in
    if h : ∃ e, (n, e) ∈ P.vars then
      match h.choose with
      | .var x => x.off
      | .arr a => a.off
      | _ => 0
    else 0
  have off_eq : ∀ n (t : Shape) (o : Nat), (n, t.ent 0 o) ∈ P.vars → off n = o := by
    intro n t o h
    have hex : ∃ e, (n, e) ∈ P.vars := ⟨_, h⟩
    have : hex.choose = t.ent 0 o := one n _ _ hex.choose_spec h
    simp only [off, dif_pos hex, this]
    obtain ⟨ty, range⟩ := t
    cases range <;> rfl
  have get : ∀ g ∈ P.groups, ∀ n ∈ g.names, ∃ o : Nat, (n, g.shape.ent 0 o) ∈ P.vars ∧ 4 ≤ o ∧
      o + g.shape.bytes ≤ P.size ∧ (g.shape.bytes ≠ 1 → o % 2 = 0) := by
    intro g hg n hn
    have : (n, g.shape) ∈ P.order :=
      List.mem_flatMap.2 ⟨g, hg, List.mem_map.2 ⟨n, by simpa using hn, rfl⟩⟩
    exact mem_placed this 0 4
  refine ⟨N, _, off, hN, rfl, hr.symm, ?_, ?_, ?_⟩
  · intro c hc m hm
    have hM : Means (locals 0 P.consts P.groups) m (.const c.value) :=
      means_of_mem hLd (List.mem_append_left _ (List.mem_map.2 ⟨c, hc, rfl⟩)) hm
    exact spells_tok hv (.const hM)
  · intro g hg n hn
    obtain ⟨o, hx, h1, h2, h3⟩ := get g hg n hn
    rw [off_eq n _ o hx]
    refine ⟨fun m hm => ?_, by omega, ?_, fun h => by have := h3 h; omega, ?_⟩
    · show Lx.tok (table (locals 0 P.consts P.groups)) 0 _ = _
      have hM : Means (locals 0 P.consts P.groups) m (g.shape.ent 0 o) :=
        means_of_mem hLd (List.mem_append_right _ hx) hm
      simp only [Lx.tok, look_means hv hM, Shape.ent, Group.shape]
      cases g.range <;> rfl
    · show (o : Int) + _ ≤ ((P.size : Nat) : Int)
      omega
    · intro g' hg' n' hn' hne
      obtain ⟨o', hx', _⟩ := get g' hg' n' hn'
      rw [off_eq n' _ o' hx']
      rcases pairwise_cases (placed_pairs P.order 0 4) hx hx' with h | h | h
      · injection h with h; exact absurd h hne
      · have := h _ _ _ rfl _ _ _ rfl; omega
      · have := h _ _ _ rfl _ _ _ rfl; omega
  · intro p hp n h
    rw [← primed_names] at hp
    obtain ⟨⟨q, s⟩, hq, rfl⟩ := List.mem_map.1 hp
    show Lx.tok (table (locals 0 P.consts P.groups)) 0 _ = _
    have h2 := alias_predefined (mem_predefined hq) h
    have h1 := look_primed hv hq h
    rw [h2] at h1
    simp only [Lx.tok, h1, h2, find_primed hq h]

/-! ### An example -/

/-- The variables `k`, `N` and `ok` of the example. -/
def vK : Variable := ⟨.num .integer, 0, 4⟩
@[inherit_doc vK] def vN : Variable := ⟨.num .integer, 0, 6⟩
@[inherit_doc vK] def vOk : Variable := ⟨.bool, 0, 10⟩

/-- `x + y` -/
def eSum (x y : Variable) : E .expr :=
  .simple (.add (.term none (.factor (.var x))) .add (.factor (.var y)))

/-- `k := 0; n := 0; while k < 3 do begin k := k + 1; n := n + k end; ok := n = 6` -/
def sumBody : S .list :=
  .cons (.assign vK (.simple (.term none (.factor (.int 0)))))
  (.cons (.assign vN (.simple (.term none (.factor (.int 0)))))
  (.cons (.while_ (.rel (.term none (.factor (.var vK))) .lt (.term none (.factor (.int 3))))
    (.block (.cons (.assign vK (.simple (.add (.term none (.factor (.var vK))) .add (.factor (.int 1)))))
      (.one (.assign vN (eSum vN vK))))))
  (.one (.assign vOk (.rel (.term none (.factor (.var vN))) .eq (.term none (.factor (.int 6)))))))) 

/-- `program sum (OUTPUT); var N, k : Integer; c : CHAR; ok : boolean; begin K := 0; n := 0;
while k < 3 do begin K := k + 1; N := n + k end; OK := N = 6 end.` -/
def sumProgram : Source where
  name := [115, 117, 109]
  files := [[79, 85, 84, 80, 85, 84]]
  groups := [⟨[78], [[107]], [73, 110, 116, 101, 103, 101, 114], .num .integer, none, none⟩,
    ⟨[99], [], [67, 72, 65, 82], .char, none, none⟩, ⟨[111, 107], [], [98, 111, 111, 108, 101, 97, 110], .bool, none, none⟩]
  body := [.name [75], .tk .assign, .tk (.int 0), .tk .semi, .name [110], .tk .assign, .tk (.int 0), .tk .semi,
    .tk .while_, .name [107], .tk .lt, .tk (.int 3), .tk .do_, .tk .begin_,
    .name [75], .tk .assign, .name [107], .tk .plus, .tk (.int 1), .tk .semi,
    .name [78], .tk .assign, .name [110], .tk .plus, .name [107], .tk .end_, .tk .semi,
    .name [79, 75], .tk .assign, .name [78], .tk .eq, .tk (.int 6)]

theorem pointwise_nil {α β : Type} {R : α → β → Prop} : Pointwise R [] [] := ⟨rfl, by simp⟩

theorem pointwise_cons {α β : Type} {R : α → β → Prop} {x : α} {y : β} {a : List α} {b : List β}
    (h : R x y) (h' : Pointwise R a b) : Pointwise R (x :: a) (y :: b) := by
  refine ⟨by simp [h'.1], fun j u v hu hv => ?_⟩
  cases j with
  | zero => cases hu; cases hv; exact h
  | succ j => exact h'.2 j u v hu hv

/-- Arrays whose bounds are written as numbers. -/
theorem no_bounds {gs : List Group} {sc : Scope} (h : ∀ g ∈ gs, g.bounds.isNone) : ∀ g ∈ gs, g.Bounds sc :=
  fun g hg r _ b hb => by have := h g hg; rw [hb] at this; cases this

theorem sum_ok : sumProgram.Ok sumBody := by
  let sc : Scope := [] ++ ([] ++ locals 0 sumProgram.consts sumProgram.groups ++ Dcl.heads 0 1 .nil)
  have hd : sc.Pairwise fun a b => ¬ SameName a.1 b.1 := by decide
  have k : Scope.vars sc vK := ⟨([107], .var vK), by decide, by decide⟩
  have n : Scope.vars sc vN := ⟨([78], .var vN), by decide, by decide⟩
  have o : Scope.vars sc vOk := ⟨([111, 107], .var vOk), by decide, by decide⟩
  have sk : ∀ m, SameName [107] m → Spells sc (.name m) vK.tk :=
    fun m h => .var (means_of_mem hd (n := [107]) (by decide) h)
  have sn : ∀ m, SameName [78] m → Spells sc (.name m) vN.tk :=
    fun m h => .var (means_of_mem hd (n := [78]) (by decide) h)
  have so : ∀ m, SameName [111, 107] m → Spells sc (.name m) vOk.tk :=
    fun m h => .var (means_of_mem hd (n := [111, 107]) (by decide) h)
  refine ⟨?_, ?_, ⟨?_, ?_, trivial, by decide, ?_, no_bounds (by decide), ?_, ?_, ?_⟩, trivial⟩
  · exact ⟨by unfold Plain; decide +kernel, by decide +kernel⟩
  · decide
  · unfold New Plain; decide +kernel
  · exact hd
  · decide
  · decide
  · repeat' apply pointwise_cons
    all_goals first
      | exact pointwise_nil
      | exact .other (by simp) (by simp) (by simp) (by simp) (by simp)
      | exact sk _ (by decide)
      | exact sn _ (by decide)
      | exact so _ (by decide)
  · refine ⟨⟨k, ?_, by decide⟩, ⟨n, ?_, by decide⟩, ⟨⟨?_, by decide⟩, ⟨k, ?_, by decide⟩, n, ?_, by decide⟩,
      o, ?_, by decide⟩
    all_goals
      intro y hy
      simp only [E.vars, eSum, List.append_nil, List.nil_append, List.cons_append, List.mem_cons,
        List.not_mem_nil, or_false] at hy
      try first
        | (rcases hy with rfl | rfl <;> assumption)
        | (subst hy; assumption)

/-- The hypotheses of `C52_program_partial` and `C57_variables_partial` are met by a program with a
loop; its meaning ends with `n = 6` and `ok = true` whatever the values at the start are. -/
example : sumProgram.Ok sumBody ∧ sumProgram.size ≤ 32768 ∧ sumProgram.procs.toks.length + sumBody.toks.length ≤ 65534 ∧
    sumBody.need 0 ≤ 16384 ∧ idleLib.NoPc ∧
    (∀ σ, ∃ τ, Exec (sumProgram.calls 0) (.list sumBody) σ .normal τ ∧ τ.store vN = some (.num .integer 6) ∧ τ.store vOk = some (.bool true)) ∧
    (∀ g ∈ sumProgram.groups, ∀ n ∈ g.names, New n) ∧
    ((sumProgram.groups.flatMap Group.names).Pairwise fun n m => ¬ SameName n m) := by
  refine ⟨sum_ok, by decide, by decide, by decide, idleLib_noPc, fun σ => ?_, ?_, by decide⟩
  · exact ⟨_, .cons (.assign (v := .num .integer 0) rfl) (.cons (.assign (v := .num .integer 0) rfl)
      (.cons (.whileNext (o := .normal) rfl (.block (.cons (.assign (v := .num .integer 1) rfl)
        (.one (.assign (v := .num .integer 1) rfl)))) (by decide) (.whileNext (o := .normal) rfl (.block (.cons (.assign (v := .num .integer 2) rfl)
        (.one (.assign (v := .num .integer 3) rfl)))) (by decide) (.whileNext (o := .normal) rfl (.block (.cons (.assign (v := .num .integer 3) rfl)
        (.one (.assign (v := .num .integer 6) rfl)))) (by decide) (.whileEnd rfl))))
      (.one (.assign (v := .bool true) rfl)))), rfl, rfl⟩
  · unfold New Plain; decide +kernel

/-- Builds a program, starts it in a machine with a string stack of 16 bytes, a stack of 100 bytes and a
heap of 32 bytes, runs it for `n` instructions and shows the words `ws` behind the base of the stack. -/
def buildAndRun (toks : List Lx) (n : Nat) (ws : List Nat) : Option (List Word) :=
  match build (fun _ => (0, 0)) 0 [112] [[112]] 40 toks with
  | .ok (some o) => match startUp (attrOf o 16 100 32) (fun _ => 0) with
    | .ok s => match runFor idleLib o.prog (maxPc o) n s with
      | .ok (e, t) => if e = eEXIT then some (ws.map fun k => t.mem (s.spb.toNat / 2 + k)) else none
      | _ => none
    | _ => none
  | _ => none

/-- The example, executed: `k`, `n` and `ok` are 3, 6 and true. -/
example : buildAndRun sumProgram.toks 200 [2, 3, 5] = some [3#16, 6#16, 0xffff#16] := by
  decide +kernel

/-! ### Violations -/

/-- The number of errors of the declarations, and the number of bytes of the variables. -/
def declErrors (toks : List Lx) : Option (Nat × Nat) :=
  match declarations 20 toks with
  | .ok (some d) => some (d.errs, d.dstack)
  | _ => none

/-- Violation of C57: `program p; var x : foo; begin end.` -- with a type that is not declared the
compiler does not just report an error but uses a null pointer. -/
theorem C57_violation_type : declarations 20 [.name [112], .tk .semi, .var_, .name [120], .tk .colon,
    .name [102, 111, 111], .tk .semi, .tk .begin_, .tk .end_, .tk .period] = .ub := by rfl

/-- Violation of C57: `var a, a : integer;` -- two variables with the same name are accepted, and
both get a place. -/
theorem C57_violation_twice : declErrors [.name [112], .tk .semi, .var_, .name [97], .tk .comma, .name [97],
    .tk .colon, .name [105, 110, 116, 101, 103, 101, 114], .tk .semi, .tk .begin_, .tk .end_, .tk .period] =
    some (0, 8) := by decide +kernel

/-- Violation of C57: a predefined name (here MAXINT) can be declared first, but not after another
declaration: `var maxint : integer; b : integer;` is accepted, `var b : integer; maxint : integer;`
is not (the second declaration is not read, so there is no BEGIN where it is expected). -/
theorem C57_violation_predefined :
    (match declarations 20 [.name [112], .tk .semi, .var_, .name [109, 97, 120, 105, 110, 116], .tk .colon, .name [105, 110, 116, 101, 103, 101, 114], .tk .semi,
        .name [98], .tk .colon, .name [105, 110, 116, 101, 103, 101, 114], .tk .semi, .tk .begin_, .tk .end_, .tk .period] with
      | .ok (some d) => some (d.tok, d.dstack)
      | _ => none) = some (.begin_, 8) ∧
    (match declarations 20 [.name [112], .tk .semi, .var_, .name [98], .tk .colon, .name [105, 110, 116, 101, 103, 101, 114], .tk .semi,
        .name [109, 97, 120, 105, 110, 116], .tk .colon, .name [105, 110, 116, 101, 103, 101, 114], .tk .semi, .tk .begin_, .tk .end_, .tk .period] with
      | .ok (some d) => some (d.tok, d.dstack)
      | _ => none) = some (.int 32767#32, 6) := by decide +kernel

/-- Violation of C57: a variable with a name that is another name of a predefined type (`text`) can be
declared but not be found: the name still means the type. -/
theorem C57_violation_alias :
    (match declarations 20 [.name [112], .tk .semi, .var_, .name [116, 101, 120, 116], .tk .colon, .name [105, 110, 116, 101, 103, 101, 114], .tk .semi,
        .tk .begin_, .tk .end_, .tk .period] with
      | .ok (some d) => some (d.errs, d.dstack, (Lx.name [116, 101, 120, 116]).tok d.tab 0)
      | _ => none) = some (0, 6, sTYPE) := by decide +kernel

end Pas.Src
