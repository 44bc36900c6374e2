import Verif.Lemmas.CompSim
import Verif.Lemmas.CompParse
import Verif.Lemmas.CompLabel
import Verif.Props.Compile

/-! Properties of compiled statements (C49, C50). -/
namespace Pas.Src
open Pas.Spec Pas.Comp

/-! ### The meaning of statements -/

theorem width_unique {σ : Store} {w : Option (E .expr)} {k k' : Nat} (h : Width σ w k) (h' : Width σ w k') :
    k = k' := by
  cases w with
  | none => exact (show k = 0 from h).trans (show k' = 0 from h').symm
  | some w =>
    have h1 := h.1
    rw [h'.1] at h1
    simp only [Option.some.injEq, Val.num.injEq, true_and] at h1
    omega

theorem item_unique {σ : Store} {i : Item} {a a' : List Byte} (h : i.Text σ a) (h' : i.Text σ a') :
    a = a' := by
  cases i with
  | val e w =>
    obtain ⟨v, k, h1, h2, h3⟩ := h
    obtain ⟨v', k', h1', h2', h3'⟩ := h'
    rw [h1] at h1'; cases h1'
    cases width_unique h2 h2'
    exact text_unique h3 h3'
  | str t => exact (show a = t from h).trans (show a' = t from h').symm

theorem texts_unique {σ : Store} {is : List Item} {a a' : List Byte} (h : Texts σ is a)
    (h' : Texts σ is a') : a = a' := by
  induction h generalizing a' with
  | nil => cases h'; rfl
  | cons h1 _ ih => cases h' with | cons h1' h2' => rw [item_unique h1 h1', ih h2']

/-- What follows the number at the beginning of a line. -/
def afterNumber (l : List Byte) : List Byte :=
  let l := l.dropWhile SysIo.isspace
  (if l.head? = some 43#8 ∨ l.head? = some 45#8 then l.tail else l).dropWhile SysIo.isdigit

theorem afterNumber_eq {blanks num tail : List Byte} {i : Int} (hb : ∀ b ∈ blanks, BlankChar b)
    (hn : Numeral num i) (ht : ∀ c ∈ tail.head?, ¬ (48 ≤ c.toNat ∧ c.toNat ≤ 57)) :
    afterNumber (blanks ++ num ++ tail) = tail := by
  have hdrop : ∀ d : List Byte, (∀ b ∈ d, 48 ≤ b.toNat ∧ b.toNat ≤ 57) →
      (d ++ tail).dropWhile SysIo.isdigit = tail := by
    intro d hd
    rw [List.dropWhile_append_of_pos]
    · cases tail with
      | nil => rfl
      | cons c r =>
        rw [List.dropWhile_cons_of_neg]
        have := ht c rfl
        simp only [SysIo.isdigit, decide_eq_true_eq]
        exact this
    · intro b hb
      simp only [SysIo.isdigit, decide_eq_true_eq]
      exact hd b hb
  unfold afterNumber
  rw [List.append_assoc]
  cases hn with
  | @plain _ n h =>
    obtain ⟨h1, h2, -⟩ := h
    obtain ⟨c, d, rfl⟩ := List.exists_cons_of_ne_nil h1
    have hc := h2 c (by simp)
    rw [SysIo.dropWhile_blanks _ _ hb (by intro x hx; cases hx; unfold BlankChar; omega)]
    dsimp only
    rw [if_neg (by
      show ¬ (some c = some 43#8 ∨ some c = some 45#8)
      rintro (h | h) <;> cases h <;> revert hc <;> decide)]
    exact hdrop _ h2
  | @plus d n h =>
    rw [SysIo.dropWhile_blanks _ _ hb (by intro x hx; cases hx; unfold BlankChar; decide)]
    exact hdrop _ h.2.1
  | @minus d n h =>
    rw [SysIo.dropWhile_blanks _ _ hb (by intro x hx; cases hx; unfold BlankChar; decide)]
    exact hdrop _ h.2.1

theorem reads1_unique {ty : Ty} {i j j' : Inp} {v v' : Val} (h : Reads1 ty i v j) (h' : Reads1 ty i v' j') :
    v = v' ∧ j = j' := by
  generalize hi : i = i' at h'
  cases h with
  | @int begun skip blanks num tail more n a1 a2 a3 a4 a5 a6 a7 a8 a9 a10 =>
    cases h' with
    | @int begun' skip' blanks' num' tail' more' n' b1 b2 b3 b4 b5 b6 b7 b8 b9 b10 =>
      rw [Inp.mk.injEq] at hi
      obtain ⟨rfl, hi⟩ := hi
      have hi' : blanks ++ num ++ tail ++ 10#8 :: more = blanks' ++ num' ++ tail' ++ 10#8 :: more' := by
        cases begun with
        | false => exact hi
        | true =>
          simp only [if_true, List.append_assoc, List.cons_append, List.nil_append] at hi ⊢
          exact (split_line hi a2 b2).2
      obtain ⟨e1, e2⟩ := split_line hi' a8 b8
      have e3 := afterNumber_eq a3 a4 a7
      rw [e1, afterNumber_eq b3 b4 b7] at e3
      have e4 := SysIo.convertInteger_ok ⟨blanks, num, tail, rfl, a3, a4, fun c hc => a7 c hc⟩ a5 a6
      rw [e1, SysIo.convertInteger_ok ⟨blanks', num', tail', rfl, b3, b4, fun c hc => b7 c hc⟩ b5 b6] at e4
      have e5 : n = n' := by
        have := congrArg BitVec.toInt e4
        rw [BitVec.toInt_ofInt, BitVec.toInt_ofInt, Int.bmod_eq_of_le (by omega) (by omega),
          Int.bmod_eq_of_le (by omega) (by omega)] at this
        exact this.symm
      rw [e5, e3, e2]
      exact ⟨rfl, rfl⟩
  | char a1 a2 a3 =>
    cases h' with
    | char b1 b2 b3 =>
      simp only [Inp.mk.injEq, true_and, List.cons.injEq] at hi
      obtain ⟨rfl, hi⟩ := hi
      obtain ⟨e1, e2⟩ := split_line hi (fun h => a1 (List.mem_cons_of_mem _ h)) (fun h => b1 (List.mem_cons_of_mem _ h))
      rw [e1, e2]
      exact ⟨rfl, rfl⟩

theorem readVars_unique {xs : List Variable} {σ τ τ' : State} (h : ReadVars xs σ τ) (h' : ReadVars xs σ τ') :
    τ = τ' := by
  induction h generalizing τ' with
  | nil => cases h'; rfl
  | cons h1 h2 _ ih =>
    cases h' with
    | cons h1' h2' h3' =>
      rw [h1] at h1'; cases h1'
      obtain ⟨rfl, rfl⟩ := reads1_unique h2 h2'
      exact ih h3'

theorem nextLine_unique {σ τ τ' : State} (h : NextLine σ τ) (h' : NextLine σ τ') : τ = τ' := by
  cases h with
  | mk h1 h2 =>
    cases h' with
    | mk h1' h2' =>
      rw [h1] at h1'
      simp only [Option.some.injEq, Inp.mk.injEq] at h1'
      rw [(split_line h1'.2 h2 h2').2]

/-- The meaning of statements is deterministic: a statement cannot end in two ways, if
calls cannot. -/
theorem C49_deterministic {P : Effects} (hP : ∀ q vs σ τ τ', P q vs σ τ → P q vs σ τ' → τ = τ') {c : Cmd}
    {σ τ τ' : State} {o o' : Outcome} (h : Exec P c σ o τ) (h' : Exec P c σ o' τ') : o = o' ∧ τ = τ' := by
  induction h generalizing o' τ' with
  | empty => cases h'; exact ⟨rfl, rfl⟩
  | assign e => cases h' with | assign e' => rw [e] at e'; cases e'; exact ⟨rfl, rfl⟩
  | assignAt e1 e2 e3 => cases h' with
    | assignAt e1' e2' e3' =>
      rw [e1] at e1'; cases e1'
      rw [e2] at e2'; cases e2'
      rw [e3] at e3'; cases e3'
      exact ⟨rfl, rfl⟩
  | thenTrue e _ ih => cases h' with
    | thenTrue e' h' => exact ih h'
    | thenFalse e' => rw [e] at e'; cases e'
  | thenFalse e => cases h' with
    | thenTrue e' h' => rw [e] at e'; cases e'
    | thenFalse e' => exact ⟨rfl, rfl⟩
  | elseTrue e _ ih => cases h' with
    | elseTrue e' h' => exact ih h'
    | elseFalse e' => rw [e] at e'; cases e'
  | elseFalse e _ ih => cases h' with
    | elseTrue e' h' => rw [e] at e'; cases e'
    | elseFalse e' h' => exact ih h'
  | whileEnd e => cases h' with
    | whileEnd => exact ⟨rfl, rfl⟩
    | whileBreak e' => rw [e] at e'; cases e'
    | whileNext e' => rw [e] at e'; cases e'
  | whileBreak e _ ih => cases h' with
    | whileEnd e' => rw [e] at e'; cases e'
    | whileBreak e' h' => exact ⟨rfl, (ih h').2⟩
    | whileNext e' h' hn => exact absurd (ih h').1.symm hn
  | whileNext e _ hn _ ih ih2 => cases h' with
    | whileEnd e' => rw [e] at e'; cases e'
    | whileBreak e' h' => exact absurd (ih h').1 hn
    | whileNext e' h' hn h2 => obtain ⟨rfl, rfl⟩ := ih h'; exact ih2 h2
  | repeatEnd _ hn e ih => cases h' with
    | repeatEnd h' => exact ⟨rfl, (ih h').2⟩
    | repeatBreak h' => exact absurd (ih h').1 hn
    | repeatNext h' _ e' => obtain ⟨rfl, rfl⟩ := ih h'; rw [e] at e'; cases e'
  | repeatBreak _ ih => cases h' with
    | repeatEnd h' hn => exact absurd (ih h').1.symm hn
    | repeatBreak h' => exact ⟨rfl, (ih h').2⟩
    | repeatNext h' hn => exact absurd (ih h').1.symm hn
  | repeatNext _ hn e _ ih ih2 => cases h' with
    | repeatEnd h' _ e' => obtain ⟨rfl, rfl⟩ := ih h'; rw [e] at e'; cases e'
    | repeatBreak h' => exact absurd (ih h').1 hn
    | repeatNext h' _ _ h2 => obtain ⟨rfl, rfl⟩ := ih h'; exact ih2 h2
  | for_ e1 e2 _ _ ih => cases h' with
    | for_ e1' e2' _ h2 =>
      rw [e1] at e1'; rw [e2] at e2'; cases e1'; cases e2'; exact ih h2
  | loopEnd hn => cases h' with
    | loopEnd => exact ⟨rfl, rfl⟩
    | loopBreak hg => exact absurd hg hn
    | loopNext hg => exact absurd hg hn
  | loopBreak hg _ ih => cases h' with
    | loopEnd hn => exact absurd hg hn
    | loopBreak _ h' => exact ⟨rfl, (ih h').2⟩
    | loopNext _ h' hn => exact absurd (ih h').1.symm hn
  | loopNext hg _ hn _ _ ih ih2 => cases h' with
    | loopEnd hn' => exact absurd hg hn'
    | loopBreak _ h' => exact absurd (ih h').1 hn
    | loopNext _ h' _ _ h2 => obtain ⟨rfl, rfl⟩ := ih h'; exact ih2 h2
  | case_ e _ ih => cases h' with
    | case_ e' h' => rw [e] at e'; cases e'; exact ih h'
  | block _ ih => cases h' with | block h' => exact ih h'
  | write e1 e2 => cases h' with
    | write e1' e2' => rw [e1] at e1'; cases e1'; rw [texts_unique e2 e2']; exact ⟨rfl, rfl⟩
  | newline e => cases h' with | newline e' => rw [e] at e'; cases e'; exact ⟨rfl, rfl⟩
  | read e => cases h' with | read e' => exact ⟨rfl, readVars_unique e e'⟩
  | readln e n => cases h' with
    | readln e' n' => rw [readVars_unique e e'] at n; exact ⟨rfl, nextLine_unique n n'⟩
  | skipLine n => cases h' with | skipLine n' => exact ⟨rfl, nextLine_unique n n'⟩
  | call e hc => cases h' with
    | call e' hc' => rw [e] at e'; cases e'; exact ⟨rfl, hP _ _ _ _ _ hc hc'⟩
  | break_ => cases h'; exact ⟨rfl, rfl⟩
  | continue_ => cases h'; exact ⟨rfl, rfl⟩
  | one _ ih => cases h' with | one h' => exact ih h'
  | consStop _ hn ih => cases h' with
    | consStop h' => exact ih h'
    | cons h' => exact absurd (ih h').1 hn
  | cons _ _ ih ih2 => cases h' with
    | consStop h' hn => exact absurd (ih h').1.symm hn
    | cons h' h2 => obtain ⟨_, rfl⟩ := ih h'; exact ih2 h2
  | lastYes hy _ ih => cases h' with
    | lastYes _ h' => exact ih h'
    | lastNo hn => exact absurd hy hn
  | lastNo hn => cases h' with
    | lastYes hy => exact absurd hy hn
    | lastNo => exact ⟨rfl, rfl⟩
  | moreYes hy _ ih => cases h' with
    | moreYes _ h' => exact ih h'
    | moreNo hn => exact absurd hy hn
  | moreNo hn _ ih => cases h' with
    | moreYes hy => exact absurd hy hn
    | moreNo _ h' => exact ih h'
  | otherwise _ ih => cases h' with | otherwise h' => exact ih h'

/-! ### Statements -/

/-- C49 (partial: the 16-bit ordinal types, the statements of `S`; no GOTO, WITH
or structured variables other than arrays with one index; not the cases excluded by `S.Ok`, which are violated, see below): the
compiler accepts every correct statement without an error, and generates code in which every label
is new and defined once, and constants `r` that are appended to those before; and wherever this code
is in a program without duplicate labels, and with these constants, if the statement ends in the state
`τ` according to the meaning of Pascal, running the code ends behind it with the same stack pointer,
the values of `τ` in the variables, the text of `τ` on the standard output and what is not read on the
standard input (if there are such), and
everything else below the top of the stack and in files unchanged. -/
theorem C49_statement_partial (g : Cfg) (lib : Lib) (Γ : Env) (hΓ : Γ.Ok) (hg : g.level = Γ.level)
    (st : S .stmt) (rest : List Tk) (cs : CS) (ok : st.Ok Γ.vars (fun _ => False) false false)
    (toks : cs.toks = st.toks ++ rest) (follows : Follows rest)
    (noElse : st.opn = true → rest.head? ≠ some .else_)
    (labels : cs.label.toNat + st.toks.length ≤ 65535) (depth : st.need 0 ≤ 16384)
    (adj : cs.adj = 0) :
    ∃ (N : Nat) (c : List OpType) (L : Word) (r : List Byte),
      (∀ n, N ≤ n → statement g n cs = some { cs with
        toks := rest
        out := cs.out ++ c
        label := L
        ro := cs.ro ++ r }) ∧
      Uniq c ∧ (∀ l, labelMark l ∈ c → cs.label < l ∧ l ≤ L) ∧ cs.label ≤ L ∧
      ∀ (σ τ : State) (o : Outcome) (s : VM) (b : Nat) (ro : List Byte) (addr : Nat → Word)
        (p : List OpType) (k : Nat), Exec noCalls (.stmt st) σ o τ → Γ.In s b → Γ.Has lib ro s b σ →
        cs.ro ++ r <+: ro → s.sp.toNat % 2 = 0 → b ≤ s.sp.toNat / 2 → RoomFor s (st.need 0) → At p k c → Uniq p →
        o = .normal ∧ ∃ t, PSteps lib addr p (k, s) (k + c.length, t) ∧ t.sp = s.sp ∧
          Γ.Has lib ro t b τ ∧ Γ.Keeps σ.io s t := by
  let x : Ctx := ⟨cs.cont.toNat, cs.brk.toNat, 0, 0, 0, cs.ro⟩
  have hl := nlab_le st
  have hr : Ready cs cs.label.toNat x := ⟨by simp, by simp [x], by simp [x], by simp [x, adj],
    by simp [x]; omega, by simp [x]; omega, rfl⟩
  have hf : Fine false false cs.label.toNat st.nlab (st.need 0) x := ⟨by simp, by simp, by omega,
    by simp [x]; omega, by simp [x]⟩
  obtain ⟨N, hN⟩ := parseS (g := g) (fun y hy => by rw [hg]; exact hΓ.usable hy) (fun _ h => h.elim) st cs cs.label.toNat
    (st.toks.length + rest.length) x rest [] false false ok hr hf follows
    (fun h => by
      obtain ⟨t, r, rfl, _⟩ := follows
      simpa using noElse h) rfl
  have hc : after cs (st.toks ++ rest) [] = cs := by
    simp only [after, ← toks, List.append_nil]
  rw [hc] at hN
  refine ⟨N, codeS g st (st.toks.length + rest.length) cs.label.toNat x,
    BitVec.ofNat 16 (cs.label.toNat + st.nlab), st.ro g.pad, fun n hn => (hN n hn).trans rfl, ?_, ?_, ?_, ?_⟩
  · apply uniq_of_cnt
    intro v hv
    have := cnt_codeS g st (st.toks.length + rest.length) cs.label.toNat x v hv (by omega)
      (by simp [x])
    simp only [extra, within] at this
    split at this <;> omega
  · intro l hm
    have := cnt_codeS g st (st.toks.length + rest.length) cs.label.toNat x l.toNat (by omega)
      (by omega) (by simp [x])
    have h1 : 0 < cnt l.toNat (codeS g st (st.toks.length + rest.length) cs.label.toNat x) :=
      List.countP_pos_iff.2 ⟨_, hm, isLab_mark l⟩
    simp only [extra, within] at this
    split at this
    · next h =>
      rw [BitVec.lt_def, BitVec.le_def, BitVec.toNat_ofNat]
      omega
    · omega
  · rw [BitVec.le_def, BitVec.toNat_ofNat]; omega
  · intro σ τ o s b ro addr p k he hi hh hro hev hb hroom hat hu
    have ho : o = .normal := by
      have := exec_ok (Γ := { Γ with procs := fun _ => False }) he false false ok
      cases o with
      | normal => rfl
      | break_ => exact absurd (this.1 rfl) (by decide)
      | continue_ => exact absurd (this.2 rfl) (by decide)
    subst ho
    let Γ' : Env := { Γ with procs := fun _ => False }
    have hΓ' : Γ'.Ok := ⟨hΓ.level, hΓ.outer, hΓ.offset0, hΓ.offset, hΓ.aligned, hΓ.disjoint, fun _ h => h.elim⟩
    have hi' : Γ'.In s b := ⟨hi.inside, hi.bound, hi.global, hi.frame, hi.levels, hi.lsp⟩
    have back : ∀ (s : VM) (σ : State), Γ'.Has lib ro s b σ ↔ Γ.Has lib ro s b σ := by
      intro s σ
      constructor <;> intro hh <;> exact ⟨hh.holds, fun text h => have o := hh.output text h
        ⟨o.lib, o.stream, o.text, o.even, o.inside, o.number, o.apart, o.fits, o.consts, o.constsApart⟩,
        fun i h => have o := hh.input i h
        ⟨o.lib, o.stream, o.eoln, o.even, o.inside, o.number, o.apart⟩⟩
    have h := sim (g := g) lib addr b ro σ.io hΓ' hg hu (cn := 0) (fun _ _ _ _ _ _ h => h.elim) he _ _ x k s
      false false ok hro hat hi'
      ⟨(back s σ).2 hh, fun h => by simpa [State.io] using h⟩ hev hb hroom
    obtain ⟨t, h1, h2, h3, h4⟩ := h.skip (sim_line hat s)
    exact ⟨rfl, t, h1, by rw [h3]; simp, (back t τ).1 h4.has, ⟨h2.1, h2.2, h2.3, h2.4, h2.5⟩⟩

/-! ### FOR -/

theorem values_stop {down : Bool} {i hi : Int} (h : ¬ goesOn down i hi) : values down i hi = [] := by
  cases down <;> simp only [goesOn, values] at h ⊢ <;> simp at h ⊢ <;> omega

theorem values_go {down : Bool} {i hi : Int} (h : goesOn down i hi) :
    values down i hi = i :: values down (after1 down i) hi := by
  cases down
  · simp only [goesOn, values, after1, Bool.false_eq_true, if_false] at h ⊢
    obtain ⟨n, hn⟩ : ∃ n : Nat, (hi - i + 1).toNat = n + 1 := ⟨(hi - i).toNat, by omega⟩
    have hn' : (hi - (i + 1) + 1).toNat = n := by omega
    rw [hn, hn', List.range_succ_eq_map, List.map_cons, List.map_map]
    congr 1
    · simp
    · apply List.map_congr_left
      intro a _
      simp only [Function.comp]
      omega
  · simp only [goesOn, values, after1, if_true] at h ⊢
    obtain ⟨n, hn⟩ : ∃ n : Nat, (i - hi + 1).toNat = n + 1 := ⟨(i - hi).toNat, by omega⟩
    have hn' : (i - 1 - hi + 1).toNat = n := by omega
    rw [hn, hn', List.range_succ_eq_map, List.map_cons, List.map_map]
    congr 1
    · simp
    · apply List.map_congr_left
      intro a _
      simp only [Function.comp]
      omega

/-- The value of the control variable after the loop: one step beyond the limit, or the initial
value if there was no iteration. -/
def final (down : Bool) (lo hi : Int) : Int :=
  if values down lo hi = [] then lo else after1 down hi

theorem final_next {down : Bool} {i hi : Int} (h : goesOn down i hi) :
    final down i hi = final down (after1 down i) hi := by
  unfold final
  rw [values_go h, if_neg (by simp)]
  split
  · next h' =>
    by_cases h2 : goesOn down (after1 down i) hi
    · rw [values_go h2] at h'; cases h'
    · cases down <;> simp [goesOn, after1] at h h2 ⊢ <;> omega
  · rfl

theorem set_set (σ : State) (x : Variable) (v w : Val) : (σ.set x v).set x w = σ.set x w := by
  have : (σ.store.set x v).set x w = σ.store.set x w := by
    funext y; simp only [Store.set]; split <;> rfl
  simp only [State.set, this]

theorem wrap_between {t : IntTy} {a i b : Int} (ha : wrap t a = a) (hb : wrap t b = b) (h1 : a ≤ i)
    (h2 : i ≤ b) : wrap t i = i := by
  by_cases h : t.signed = true
  · rw [wrap_signed h] at *
    have a1 := Int.le_bmod (x := a) (m := 65536) (by decide)
    have b2 := Int.bmod_lt (x := b) (m := 65536) (by decide)
    rw [ha] at a1; rw [hb] at b2
    exact Int.bmod_eq_of_le (by omega) (by omega)
  · rw [Bool.not_eq_true] at h
    rw [wrap_unsigned h] at *
    omega

theorem loop_of_iter {x : Variable} {t : IntTy} {s : S .stmt} {down : Bool} {hi : Int}
    (hw : wrap t hi = hi) :
    ∀ (n : Nat) (i : Int) (σ τ : State), (values down i hi).length = n →
      (goesOn down i hi → wrap t i = i) →
      Iter noCalls x t s (values down i hi) σ τ →
      Exec noCalls (.loop x t down i hi s) (σ.set x (.num t (wrap t i))) .normal
        (τ.set x (.num t (wrap t (final down i hi)))) := by
  intro n
  induction n with
  | zero =>
    intro i σ τ hl _ hit
    by_cases h : goesOn down i hi
    · rw [values_go h] at hl; cases hl
    · rw [values_stop h] at hit
      cases hit
      rw [show final down i hi = i by simp [final, values_stop h]]
      exact .loopEnd h
  | succ n ih =>
    intro i σ τ hl hr hit
    by_cases h : goesOn down i hi
    · rw [values_go h] at hit hl
      rw [hr h]
      cases hit with
      | cons he hn hx hit =>
        refine .loopNext h he hn (by rw [hr h]; exact hx) ?_
        rw [final_next h]
        refine ih _ _ _ (by simpa using hl) ?_ hit
        intro h2
        have h1 := hr h
        cases down <;> simp only [goesOn, after1, Bool.false_eq_true, if_false, if_true] at h h2 ⊢
        · exact wrap_between h1 hw (by omega) h2
        · exact wrap_between hw h1 h2 (by omega)
    · rw [values_stop h] at hl; cases hl

/-- C50 (partial: control variables of type Integer and Word at 16 bits; the limits excluded by
`Countable`, limits that mention the control variable and short control variables are violated, see
below; loops left by BREAK are covered by C49): the compiler accepts every correct FOR statement,
and running the generated code executes the body exactly once for each of the values `lo`,
`lo + 1`, …, `hi` (`lo`, `lo - 1`, …, `hi` with DOWNTO), in this order and each time with this value
in the control variable, not at all if there is no such value, and then ends. -/
theorem C50_for_partial (g : Cfg) (lib : Lib) (Γ : Env) (hΓ : Γ.Ok) (hg : g.level = Γ.level)
    (x : Variable) (down : Bool) (a c : E .expr) (body : S .stmt) (rest : List Tk) (cs : CS)
    (ok : (S.for_ x down a c body).Ok Γ.vars (fun _ => False) false false)
    (toks : cs.toks = (S.for_ x down a c body).toks ++ rest) (follows : Follows rest)
    (noElse : body.opn = true → rest.head? ≠ some .else_)
    (labels : cs.label.toNat + (S.for_ x down a c body).toks.length ≤ 65535)
    (depth : (S.for_ x down a c body).need 0 ≤ 16384) (adj : cs.adj = 0) :
    ∃ (N : Nat) (code : List OpType) (L : Word) (r : List Byte),
      (∀ n, N ≤ n → statement g n cs = some { cs with
        toks := rest
        out := cs.out ++ code
        label := L
        ro := cs.ro ++ r }) ∧
      ∀ (σ τ : State) (t : IntTy) (lo hi : Int) (s : VM) (b : Nat) (ro : List Byte) (addr : Nat → Word)
        (p : List OpType) (k : Nat),
        a.eval σ.store (.a x.ty) = some (.num t lo) → c.eval σ.store (.a x.ty) = some (.num t hi) →
        Countable t down lo hi → Iter noCalls x t body (values down lo hi) σ τ →
        Γ.In s b → Γ.Has lib ro s b σ → cs.ro ++ r <+: ro → s.sp.toNat % 2 = 0 → b ≤ s.sp.toNat / 2 →
        RoomFor s ((S.for_ x down a c body).need 0) → At p k code → Uniq p →
        ∃ s', PSteps lib addr p (k, s) (k + code.length, s') ∧ s'.sp = s.sp ∧
          (∃ i, Γ.Has lib ro s' b (τ.set x (.num t i))) ∧ Γ.Keeps σ.io s s' := by
  obtain ⟨N, code, L, r, h1, _, _, _, h2⟩ := C49_statement_partial g lib Γ hΓ hg _ rest cs ok toks follows
    noElse labels depth adj
  refine ⟨N, code, L, r, h1, ?_⟩
  intro σ τ t lo hi s b ro addr p k e1 e2 hc hit hi' hh hro hev hb hroom hat hu
  have room : ∀ m, m ≤ (S.for_ x down a c body).need 0 → RoomFor s m :=
    fun m hm => ⟨by have := hroom.1; omega, hroom.2⟩
  have hok := ok
  obtain ⟨_, _, oka, okc, _⟩ := ok
  obtain ⟨_, _, _, r1, _⟩ := runs lib hΓ a _ _ _ s oka.2 e1 oka.1 hi' hh.holds hb
    (room _ (by simp only [S.need]; omega))
  obtain ⟨_, _, _, r2, _⟩ := runs lib hΓ c _ _ _ s okc.2 e2 okc.1 hi' hh.holds hb
    (room _ (by simp only [S.need]; omega))
  have hx := loop_of_iter (x := x) (s := body) (down := down) r2 _ lo σ τ rfl (fun _ => r1) hit
  rw [r1] at hx
  obtain ⟨_, s', q1, q2, q3, q4⟩ := h2 σ _ .normal s b ro addr p k (.for_ e1 e2 hc hx) hi' hh hro hev hb hroom
    hat hu
  exact ⟨s', q1, q2, ⟨_, q3⟩, q4⟩


/-! ### Concrete cases -/

instance (down : Bool) (i hi : Int) : Decidable (goesOn down i hi) := by
  unfold goesOn; infer_instance
instance (t : IntTy) (down : Bool) (i hi : Int) : Decidable (Countable t down i hi) := by
  cases t <;> unfold Countable <;> infer_instance

/-- The values of the example, without a standard output and input. -/
def exSt : State := ⟨exStore, none, none⟩

def eV (x : Variable) : E .expr := .simple (.term none (.factor (.var x)))
def eN (n : Nat) : E .expr := .simple (.term none (.factor (.int n)))
def eB (b : Bool) : E .expr := .simple (.term none (.factor (.bool b)))
/-- `not x` -/
def eNot (x : Variable) : E .expr := .simple (.term none (.factor (.not false (.var x))))
/-- `x + n` -/
def ePlus (x : Variable) (n : Nat) : E .expr :=
  .simple (.add (.term none (.factor (.var x))) .add (.factor (.int n)))
/-- `x < n` -/
def eLess (x : Variable) (n : Nat) : E .expr :=
  .rel (.term none (.factor (.var x))) .lt (.term none (.factor (.int n)))

/-- `while xA < 1002 do begin xA := xA + 1; if xA = 1002 … end`: a loop with a CASE. -/
def exWhile : S .stmt :=
  .while_ (eLess xA 1002) (.block (.cons (.assign xA (ePlus xA 1))
    (.one (.case_ (eV xA) (.last (.int 1002) [.int 7] (.assign xC (eNot xC)) false)))))

/-- The hypotheses of `C49_statement_partial` are met: two iterations, the second negates `xC`. -/
example : exWhile.Ok exEnv.vars (fun _ => False) false false ∧ Follows [.semi] ∧ exWhile.opn = false ∧
    exWhile.need 0 ≤ 16384 ∧ RoomFor exState (exWhile.need 0) ∧
    (∃ τ, Exec noCalls (.stmt exWhile) exSt .normal τ ∧ τ.store xA = some (.num .integer 1002) ∧ τ.store xC = some (.bool false)) ∧
    exEnv.Ok ∧ exEnv.In exState 29 ∧ exEnv.Has idleLib [] exState 29 exSt ∧ 29 ≤ exState.sp.toNat / 2 := by
  have va : exEnv.vars xA := by simp [exEnv]
  have vc : exEnv.vars xC := by simp [exEnv]
  refine ⟨⟨⟨?_, by decide⟩, ⟨va, ?_, by decide⟩, .num .integer, ⟨?_, by decide⟩, ?_, vc, ?_, by decide⟩,
    ⟨_, _, rfl, by simp⟩, rfl, by decide, ⟨by decide, by decide⟩, ?_, exEnv_ok, exEnv_in,
    ⟨exEnv_holds, (fun _ h => by cases h), fun _ h => by cases h⟩,
    by decide⟩
  · intro y hy; revert y; simp only [exEnv]; decide
  · intro y hy; revert y; simp only [exEnv]; decide
  · intro y hy; revert y; simp only [exEnv]; decide
  · intro c hc
    simp only [List.mem_cons, List.not_mem_nil, or_false] at hc
    rcases hc with rfl | rfl <;> simp [Const.fits, IntTy.signed]
  · intro y hy; revert y; simp only [exEnv]; decide
  · refine ⟨((exSt.set xA (.num .integer 1001)).set xA (.num .integer 1002)).set xC (.bool false),
      ?_, by decide, by decide⟩
    refine .whileNext (by decide) (.block (.cons (.assign (v := .num .integer 1001) (by decide))
      (.one (.case_ (v := .num .integer 1001) (by decide) (.lastNo (by simp [Const.is]))))))
      (by decide) ?_
    refine .whileNext (by decide) (.block (.cons (.assign (v := .num .integer 1002) (by decide))
      (.one (.case_ (v := .num .integer 1002) (by decide) (.lastYes (by simp [Const.is])
        (.assign (v := .bool false) (by decide)))))))
      (by decide) (.whileEnd (by decide))

/-- `for xA := 1 to 3 do xC := not xC` -/
def exFor : S .stmt := .for_ xA false (eN 1) (eN 3) (.assign xC (eNot xC))

/-- The hypotheses of `C50_for_partial` are met by a loop of three iterations. -/
example : exFor.Ok exEnv.vars (fun _ => False) false false ∧ Countable .integer false 1 3 ∧
    values false 1 3 = [1, 2, 3] ∧ (eN 1).eval exStore (.a xA.ty) = some (.num .integer 1) ∧
    (eN 3).eval exStore (.a xA.ty) = some (.num .integer 3) ∧
    ∃ τ, Iter noCalls xA .integer (.assign xC (eNot xC)) (values false 1 3) exSt τ ∧
      τ.store xC = some (.bool false) := by
  have va : exEnv.vars xA := by simp [exEnv]
  have vc : exEnv.vars xC := by simp [exEnv]
  refine ⟨⟨va, by decide, ⟨?_, by decide⟩, ⟨?_, by decide⟩, by decide, vc, ?_, by decide⟩,
    by decide, by decide, by decide, by decide, ?_⟩
  · intro y hy; cases hy
  · intro y hy; cases hy
  · intro y hy; revert y; simp only [exEnv]; decide
  · refine ⟨_, .cons (.assign (v := .bool false) (by decide)) (by decide) (by decide)
      (.cons (.assign (v := .bool true) (by decide)) (by decide) (by decide)
      (.cons (.assign (v := .bool false) (by decide)) (by decide) (by decide) .nil)), by decide⟩

/-! ### Violations -/

/-- A place in a procedure; no line numbers. -/
def exCfg : Cfg := ⟨1, fun _ => (0, 0), 0⟩

/-- Compiles a statement, finishes the program, runs it for `n` instructions and shows what is in
the words `ws`; nothing if the compiler reports an error or the program does not end. -/
def endsWith (st : S .stmt) (n : Nat) (ws : List Nat) : Option (List Word) :=
  match statement exCfg 30 (start (st.toks ++ [.period])) with
  | some cs => if cs.errs ≠ 0 then none else
    match finalize ⟨encode (cs.out ++ [ins .end_ 0 0]), [], [], [], none⟩ with
    | .ok (some f) =>
      match runFor idleLib f.prog (BitVec.ofNat 16 f.prog.length) n exState with
      | .ok (e, t) => if e = eEXIT then some (ws.map t.mem) else none
      | _ => none
    | _ => none
  | none => none

/-- The compiled loop of the example behaves as it should (words 8 and 25 are `xA` and `xC`). -/
example : endsWith exWhile 100 [8, 25] = some [1002#16, 0#16] := by decide +kernel

/-- `case xC of true: xA := 1 end` -/
def caseTrue : S .stmt := .case_ (eV xC) (.last (.bool true) [] (.assign xA (eN 1)) false)

/-- Violation of C49: a CASE with the constant TRUE is rejected (its value is not in the range from
0 to 65535). -/
theorem C49_violation_case_true :
    (∃ τ, Exec noCalls (.stmt caseTrue) exSt .normal τ ∧ τ.store xA = some (.num .integer 1)) ∧
    (statement exCfg 30 (start (caseTrue.toks ++ [.period]))).map (·.errs) = some 1 :=
  ⟨⟨_, .case_ (v := .bool true) (by decide) (.lastYes (by simp [Const.is])
    (.assign (v := .num .integer 1) (by decide))), by decide⟩, by decide +kernel⟩

/-- `repeat xA := xA + 1; if xA < 1003 then continue until true` -/
def repeatCont : S .stmt :=
  .repeat_ (.cons (.assign xA (ePlus xA 1)) (.one (.ifThen (eLess xA 1003) .continue_))) (eB true)

/-- Violation of C49: CONTINUE in a REPEAT goes to the beginning of the loop without the test at its
end.  The loop should end after one iteration with 1001; it ends with 1003. -/
theorem C49_violation_repeat_continue :
    (∃ τ, Exec noCalls (.stmt repeatCont) exSt .normal τ ∧ τ.store xA = some (.num .integer 1001)) ∧
    endsWith repeatCont 100 [8] = some [1003#16] := by
  refine ⟨⟨_, .repeatEnd (.cons (.assign (v := .num .integer 1001) (by decide))
    (.one (.thenTrue (by decide) .continue_))) (by decide) (by decide), by decide⟩, by decide +kernel⟩

/-- `for xB := 1 to 2 do` nothing -/
def forShort : S .stmt := .for_ xB false (eN 1) (eN 2) .empty

/-- Violation of C50: a FOR with a control variable of one byte stores two bytes; the byte behind the
variable (0xaa in the upper half of word 9) is overwritten. -/
theorem C50_violation_short :
    (∃ τ, Exec noCalls (.stmt forShort) exSt .normal τ) ∧ byte exState.mem 19 = 0xaa#8 ∧
    endsWith forShort 100 [9] = some [3#16] := by
  refine ⟨⟨_, .for_ (t := .shortInteger) (i := 1) (hi := 2) (by decide) (by decide) (by decide)
    (.loopNext (by decide) .empty (by decide) (by decide) (.loopNext (by decide) .empty (by decide) (by decide)
    (.loopEnd (by decide))))⟩, by decide, by decide +kernel⟩

/-- `for xA := 999 to xA do xC := not xC` -/
def forOrder : S .stmt := .for_ xA false (eN 999) (eV xA) (.assign xC (eNot xC))

/-- Violation of C50: the limit is evaluated after the control variable has been assigned.  The loop
from 999 to 1000 should negate `xC` twice; it does it once. -/
theorem C50_violation_order :
    (∃ τ, Exec noCalls (.stmt forOrder) exSt .normal τ ∧ τ.store xC = some (.bool true)) ∧
    exStore xC = some (.bool true) ∧ endsWith forOrder 100 [25] = some [0#16] := by
  refine ⟨⟨_, .for_ (t := .integer) (i := 999) (hi := 1000) (by decide) (by decide) (by decide)
    (.loopNext (by decide) (.assign (v := .bool false) (by decide)) (by decide) (by decide)
    (.loopNext (by decide) (.assign (v := .bool true) (by decide)) (by decide) (by decide)
    (.loopEnd (by decide)))), by decide⟩, by decide, by decide +kernel⟩
/-- `for xD := xD to not xD do xA := 1`, with 7 in the Word `xD`: from 7 to 65528. -/
def forWord : S .stmt := .for_ xD false (eV xD) (eNot xD) (.assign xA (eN 1))

/-- Violation of C50: words are compared as signed integers.  The body should be executed for the
values from 7 to 65528, so `xA` should be 1 at the end; it is not executed at all. -/
theorem C50_violation_word :
    (eV xD).eval exStore (.a xD.ty) = some (.num .word 7) ∧
    (eNot xD).eval exStore (.a xD.ty) = some (.num .word 65528) ∧ 7 ∈ values false 7 65528 ∧
    (∀ τ, Iter noCalls xD .word (.assign xA (eN 1)) (values false 7 65528) exSt τ →
      τ.store xA = some (.num .integer 1)) ∧
    endsWith forWord 100 [8] = some [1000#16] := by
  refine ⟨by decide, by decide, ?_, ?_, by decide +kernel⟩
  · rw [values_go (by decide)]; simp
  · intro τ h
    rw [values_go (by decide)] at h
    generalize values false (after1 false 7) 65528 = is at h
    have key : ∀ is σ τ, Iter noCalls xD .word (.assign xA (eN 1)) is σ τ → σ.store xA = some (.num .integer 1) →
        τ.store xA = some (.num .integer 1) := by
      intro is σ τ h
      induction h with
      | nil => exact id
      | cons h _ _ _ ih =>
        intro _
        refine ih ?_
        cases h with
        | assign e => cases e; rfl
    cases h with
    | cons h _ _ h2 =>
      refine key _ _ _ h2 ?_
      cases h with
      | assign e => cases e; rfl

/-- `for xA := 32767 to 32767 do` nothing -/
def forMax : S .stmt := .for_ xA false (eN 32767) (eN 32767) .empty

/-- The finished program of the statement. -/
def finished (st : S .stmt) : Option (List Byte) :=
  match statement exCfg 30 (start (st.toks ++ [.period])) with
  | some cs => if cs.errs ≠ 0 then none else
    match finalize ⟨encode (cs.out ++ [ins .end_ 0 0]), [], [], [], none⟩ with
    | .ok (some f) => some f.prog
    | _ => none
  | none => none

/-- PUSH 32767, ST, PUSH 32767, DUP, LD, JLT, LD, INC, ST, JMP, INDS −2, END -/
def forMaxProg : List Byte :=
  [0xb3, 0x7f, 0xff, 0xa4, 0, 0, 0xb3, 0x7f, 0xff, 0x28, 0xa0, 0, 0, 0x9a, 0, 0x1a, 0xa0, 0, 0, 3,
    0xa4, 0, 0, 0x96, 0, 9, 0xb4, 0xff, 0xfe, 0x3f]

def mst (pc sp : Word) (m : Nat → Word) : VM := { exState with
  pc := pc
  sp := sp
  mem := m }

theorem max0 (m : Nat → Word) : execute idleLib forMaxProg 30 (mst 0 60 m) =
    .ok (eNOERROR, mst 3 62 (updW m 31 0x7fff#16)) := by
  have : execute idleLib forMaxProg 30 (mst 0 60 m) =
    pexec24 idleLib (mst 0 60 m) (some .push) 0x7fff#16 := rfl
  rw [this, pexec24]
  simp [VM.top, mst, exState, VM.push, VM.wr, done24]

theorem max3 (m : Nat → Word) : execute idleLib forMaxProg 30 (mst 3 62 m) =
    .ok (eNOERROR, mst 6 60 (updW m 8 (m 31))) := by
  have : execute idleLib forMaxProg 30 (mst 3 62 m) =
    pexec24 idleLib (mst 3 62 m) (some .st) 0#16 := rfl
  rw [this, pexec24]
  simp [VM.rd, VM.top, mst, exState, VM.wr, done24, VM.pop, VM.putStack]

theorem max6 (m : Nat → Word) : execute idleLib forMaxProg 30 (mst 6 60 m) =
    .ok (eNOERROR, mst 9 62 (updW m 31 0x7fff#16)) := by
  have : execute idleLib forMaxProg 30 (mst 6 60 m) =
    pexec24 idleLib (mst 6 60 m) (some .push) 0x7fff#16 := rfl
  rw [this, pexec24]
  simp [VM.top, mst, exState, VM.push, VM.wr, done24]

theorem max9 (m : Nat → Word) : execute idleLib forMaxProg 30 (mst 9 62 m) =
    .ok (eNOERROR, mst 10 64 (updW m 32 (m 31))) := by
  have : execute idleLib forMaxProg 30 (mst 9 62 m) = pexec8 (mst 9 62 m) (some .dup) := rfl
  rw [this, pexec8]
  simp [VM.tos, VM.rd, VM.top, mst, exState, VM.push, VM.wr, done8]

theorem max10 (m : Nat → Word) : execute idleLib forMaxProg 30 (mst 10 64 m) =
    .ok (eNOERROR, mst 13 66 (updW m 33 (m 8))) := by
  have : execute idleLib forMaxProg 30 (mst 10 64 m) =
    pexec24 idleLib (mst 10 64 m) (some .ld) 0#16 := rfl
  rw [this, pexec24]
  simp [VM.rd, VM.top, mst, exState, VM.push, VM.wr, done24, VM.getStack]

theorem max13 (m : Nat → Word) (h : m 32 = 0x7fff#16) : execute idleLib forMaxProg 30 (mst 13 66 m) =
    .ok (eNOERROR, mst 16 62 m) := by
  have : execute idleLib forMaxProg 30 (mst 13 66 m) =
    pexec24 idleLib (mst 13 66 m) (some .jlt) 26#16 := rfl
  rw [this, pexec24]
  have : ¬ (32767 < (m 33).toInt) := by
    have := BitVec.toInt_lt (x := m 33)
    simp at this
    omega
  simp [jump2, VM.rd, VM.top, mst, exState, done24, VM.pop, h, this]

theorem max16 (m : Nat → Word) : execute idleLib forMaxProg 30 (mst 16 62 m) =
    .ok (eNOERROR, mst 19 64 (updW m 32 (m 8))) := by
  have : execute idleLib forMaxProg 30 (mst 16 62 m) =
    pexec24 idleLib (mst 16 62 m) (some .ld) 0#16 := rfl
  rw [this, pexec24]
  simp [VM.rd, VM.top, mst, exState, VM.push, VM.wr, done24, VM.getStack]

theorem max19 (m : Nat → Word) : execute idleLib forMaxProg 30 (mst 19 64 m) =
    .ok (eNOERROR, mst 20 64 (updW m 32 (m 32 + 1#16))) := by
  have : execute idleLib forMaxProg 30 (mst 19 64 m) = pexec8 (mst 19 64 m) (some .inc) := rfl
  rw [this, pexec8]
  simp [VM.tos, VM.rd, VM.top, mst, exState, VM.wr, done8, unop, VM.setTos]

theorem max20 (m : Nat → Word) : execute idleLib forMaxProg 30 (mst 20 64 m) =
    .ok (eNOERROR, mst 23 62 (updW m 8 (m 32))) := by
  have : execute idleLib forMaxProg 30 (mst 20 64 m) =
    pexec24 idleLib (mst 20 64 m) (some .st) 0#16 := rfl
  rw [this, pexec24]
  simp [VM.rd, VM.top, mst, exState, VM.wr, done24, VM.pop, VM.putStack]

theorem max23 (m : Nat → Word) : execute idleLib forMaxProg 30 (mst 23 62 m) =
    .ok (eNOERROR, mst 9 62 m) := by
  have : execute idleLib forMaxProg 30 (mst 23 62 m) =
    pexec24 idleLib (mst 23 62 m) (some .jmp) 9#16 := rfl
  rw [this, pexec24]
  simp [mst]

/-- The states that are reached. -/
def MaxLoop (s : VM) : Prop := ∃ m, s = mst 0 60 m ∨ s = mst 3 62 m ∨ s = mst 6 60 m ∨
  m 31 = 0x7fff#16 ∧ (s = mst 9 62 m ∨ m 32 = 0x7fff#16 ∧ (s = mst 10 64 m ∨ s = mst 13 66 m) ∨
    s = mst 16 62 m ∨ s = mst 19 64 m ∨ s = mst 20 64 m ∨ s = mst 23 62 m)

theorem maxLoop_step {s : VM} (h : MaxLoop s) :
    ∃ t, execute idleLib forMaxProg 30 s = .ok (eNOERROR, t) ∧ MaxLoop t := by
  obtain ⟨m, h⟩ := h
  rcases h with rfl | rfl | rfl | ⟨h31, rfl | ⟨h32, rfl | rfl⟩ | rfl | rfl | rfl | rfl⟩
  · exact ⟨_, max0 m, _, .inr (.inl rfl)⟩
  · exact ⟨_, max3 m, _, .inr (.inr (.inl rfl))⟩
  · exact ⟨_, max6 m, _, .inr (.inr (.inr ⟨rfl, .inl rfl⟩))⟩
  · exact ⟨_, max9 m, updW m 32 (m 31), .inr (.inr (.inr ⟨h31, .inr (.inl ⟨h31, .inl rfl⟩)⟩))⟩
  · exact ⟨_, max10 m, updW m 33 (m 8), .inr (.inr (.inr ⟨h31, .inr (.inl ⟨h32, .inr rfl⟩)⟩))⟩
  · exact ⟨_, max13 m h32, _, .inr (.inr (.inr ⟨h31, .inr (.inr (.inl rfl))⟩))⟩
  · exact ⟨_, max16 m, updW m 32 (m 8), .inr (.inr (.inr ⟨h31, .inr (.inr (.inr (.inl rfl)))⟩))⟩
  · exact ⟨_, max19 m, updW m 32 (m 32 + 1#16), .inr (.inr (.inr ⟨h31, .inr (.inr (.inr (.inr (.inl rfl))))⟩))⟩
  · exact ⟨_, max20 m, updW m 8 (m 32), .inr (.inr (.inr ⟨h31, .inr (.inr (.inr (.inr (.inr rfl))))⟩))⟩
  · exact ⟨_, max23 m, _, .inr (.inr (.inr ⟨h31, .inl rfl⟩))⟩

/-- Violation of C50: a loop up to the largest integer never ends, however long the program runs,
although its range is the single value 32767. -/
theorem C50_violation_maxint :
    finished forMax = some forMaxProg ∧ values false 32767 32767 = [32767] ∧
    ∀ n, ∃ t, runFor idleLib forMaxProg 30 n exState = .ok (eNOERROR, t) := by
  refine ⟨by decide +kernel, by decide, ?_⟩
  have key : ∀ n s, MaxLoop s → ∃ t, runFor idleLib forMaxProg 30 n s = .ok (eNOERROR, t) := by
    intro n
    induction n with
    | zero => exact fun s _ => ⟨s, rfl⟩
    | succ n ih =>
      intro s h
      obtain ⟨t, e, h'⟩ := maxLoop_step h
      obtain ⟨u, hu⟩ := ih t h'
      exact ⟨u, by rw [runFor, e]; exact hu⟩
  exact fun n => key n exState ⟨exState.mem, .inl rfl⟩

end Pas.Src
