import Verif.Spec.Calls
import Verif.Lemmas.CompSim
import Verif.Props.Frames

/-! Calls of declared procedures on the machine. -/
namespace Pas.Src
open Pas.Spec Pas.Comp

/-! ### Parameters -/

theorem parmVars_mem {lev : Nat} : ∀ {ts : List Ty} {x : Variable}, x ∈ parmVars lev ts →
    ∃ i, i < ts.length ∧ ts[i]? = some x.ty ∧ x.level = lev ∧ x.off = -(2 * (ts.length - i) : Int)
  | [], x, h => by simp [parmVars] at h
  | t :: ts, x, h => by
    simp only [parmVars, List.mem_cons] at h
    rcases h with rfl | h
    · exact ⟨0, by simp, by simp, rfl, by simp⟩
    · obtain ⟨i, h1, h2, h3, h4⟩ := parmVars_mem h
      refine ⟨i + 1, by simp; omega, by simpa using h2, h3, ?_⟩
      rw [h4]; simp; omega

theorem valueIn_parm {lev : Nat} : ∀ {ts : List Ty} {vs : List Val} {x : Variable} {v : Val},
    vs.length = ts.length → valueIn x ((parmVars lev ts).zip vs) = some v →
    ∃ i : Nat, ts[i]? = some x.ty ∧ vs[i]? = some v ∧ x.level = lev ∧ x.off = -(2 * (ts.length - i) : Int)
  | [], [], x, v, _, h => by simp [parmVars, valueIn] at h
  | t :: ts, w :: vs, x, v, hl, h => by
    simp only [parmVars, List.zip_cons_cons, valueIn] at h
    split at h
    · next e =>
      cases h; subst e
      exact ⟨0, by simp, by simp, rfl, by simp⟩
    · obtain ⟨i, h1, h2, h3, h4⟩ := valueIn_parm (by simpa using hl) h
      refine ⟨i + 1, by simpa using h1, by simpa using h2, h3, ?_⟩
      rw [h4]; simp; omega

/-! ### Frames -/

theorem linkIn_split {s : VM} {Q : Nat → Prop} {J d : Nat} {f g h : Word} (h1 : LinkIn s Q J f g)
    (h2 : LinkIn s Q (J + d) f h) : LinkIn s Q d g h := by
  induction h1 with
  | here f => simpa using h2
  | @out J f g _ _ _ ih =>
    apply ih
    have e : J + 1 + d = (J + d) + 1 := by omega
    rw [e] at h2
    cases h2 with
    | out _ _ r => exact r

theorem linkIn_mono {s : VM} {Q R : Nat → Prop} {d : Nat} {f g : Word} (hQ : ∀ j, Q j → R j)
    (h : LinkIn s Q d f g) : LinkIn s R d f g := by
  induction h with
  | here f => exact .here f
  | out i q _ ih => exact .out i (hQ _ q) ih

theorem findFrame_link {s : VM} {Q : Nat → Prop} (hQ : ∀ j, Q j → j < s.words) :
    ∀ (J L fuel : Nat) (a : Word), J ≤ L → J < fuel →
    (∀ j, j ≤ J → ∃ f, LinkIn s Q j a f ∧ Q (f.toNat / 2 + 4) ∧
      (s.mem (f.toNat / 2 + 4)).toNat % 256 = L - j) →
    ∃ f, LinkIn s Q J a f ∧ findFrame s (L - J) fuel a = .ok (some f)
  | 0, L, fuel + 1, a, hJ, hf, h => by
    obtain ⟨f, h1, h2, h3⟩ := h 0 (by omega)
    cases h1
    refine ⟨a, .here a, ?_⟩
    unfold findFrame
    have hr : s.rd (a.toNat / 2 + 4) = .ok (s.mem (a.toNat / 2 + 4)) := by
      unfold VM.rd; rw [if_pos (hQ _ h2)]
    rw [hr]
    simp only [Res.ok_bind]
    rw [h3, if_neg (by omega), if_pos rfl]
  | J + 1, L, fuel + 1, a, hJ, hf, h => by
    obtain ⟨f, h1, h2, h3⟩ := h 0 (by omega)
    cases h1
    obtain ⟨g, g1, g2, g3⟩ := h (J + 1) (by omega)
    cases g1 with
    | out gi gq gr =>
    obtain ⟨x, x1, x2⟩ := findFrame_link hQ J (L - 1) fuel (s.mem (a.toNat / 2)) (by omega) (by omega) (by
      intro j hj
      obtain ⟨y, y1, y2, y3⟩ := h (j + 1) (by omega)
      cases y1 with
      | out _ _ yr => exact ⟨y, yr, y2, by rw [y3]; omega⟩)
    refine ⟨x, .out gi gq x1, ?_⟩
    unfold findFrame
    have hr : s.rd (a.toNat / 2 + 4) = .ok (s.mem (a.toNat / 2 + 4)) := by
      unfold VM.rd; rw [if_pos (hQ _ h2)]
    have hr2 : s.rd (a.toNat / 2) = .ok (s.mem (a.toNat / 2)) := by
      unfold VM.rd; rw [if_pos gi]
    rw [hr]
    simp only [Res.ok_bind]
    rw [h3, if_neg (by omega), if_neg (by omega), hr2]
    simp only [Res.ok_bind]
    rw [← x2]
    congr 1
    omega
  | _, _, 0, _, _, hf, _ => by omega

theorem levelWord_low (l : Word) (n : Nat) (h : n ≤ 255) :
    ((l <<< 8) ||| (BitVec.ofNat 8 n).zeroExtend 16).toNat % 256 = n := by
  have e1 : ((l <<< 8) ||| (BitVec.ofNat 8 n).zeroExtend 16).setWidth 8 = BitVec.ofNat 8 n := by
    ext i hi
    simp
  have e2 := congrArg BitVec.toNat e1
  simp only [BitVec.toNat_setWidth, BitVec.toNat_ofNat] at e2
  omega

/-! ### Without an output there is no output -/

theorem readVars_out {xs : List Variable} {σ τ : State} (h : ReadVars xs σ τ) : τ.out = σ.out := by
  induction h with
  | nil => rfl
  | cons _ _ _ ih => exact ih

theorem exec_out {P : Effects} (hP : ∀ q vs σ τ, P q vs σ τ → σ.out = none → τ.out = none) {c : Cmd}
    {σ τ : State} {o : Outcome} (h : Exec P c σ o τ) : σ.out = none → τ.out = none := by
  induction h with
  | write h _ => intro h'; rw [h'] at h; cases h
  | newline h => intro h'; rw [h'] at h; cases h
  | read h => exact fun h' => (readVars_out h).trans h'
  | readln h hn => cases hn; exact fun h' => (readVars_out h).trans h'
  | skipLine hn => cases hn; exact id
  | call _ h => exact hP _ _ _ _ h
  | whileNext _ _ _ _ ih1 ih2 => exact fun h => ih2 (ih1 h)
  | repeatNext _ _ _ _ ih1 ih2 => exact fun h => ih2 (ih1 h)
  | loopNext _ _ _ _ _ ih1 ih2 => exact fun h => ih2 (ih1 h)
  | cons _ _ ih1 ih2 => exact fun h => ih2 (ih1 h)
  | empty | assign _ | assignAt _ _ _ | thenFalse _ | whileEnd _ | break_ | continue_ | lastNo _ | loopEnd _ => exact id
  | thenTrue _ _ ih | elseTrue _ _ ih | elseFalse _ _ ih | for_ _ _ _ _ ih | case_ _ _ ih
  | whileBreak _ _ ih | loopBreak _ _ ih | lastYes _ _ ih | moreYes _ _ ih | moreNo _ _ ih => exact ih
  | repeatEnd _ _ _ ih => exact ih
  | consStop _ _ ih => exact ih
  | repeatBreak _ ih | block _ ih | one _ ih | otherwise _ ih => exact ih

theorem calls_out (D : Decls) : ∀ d q vs σ τ, Calls D d q vs σ τ → σ.out = none → τ.out = none
  | 0, _, _, _, _, h => h.elim
  | d + 1, q, vs, σ, τ, h => by
    obtain ⟨decl, τ', _, h2, rfl⟩ := h
    intro h0
    have h3 : τ'.out = none := exec_out (calls_out D d) h2 h0
    exact h3

/-! ### Without an input there is no input -/

theorem exec_inp {P : Effects} (hP : ∀ q vs σ τ, P q vs σ τ → σ.inp = none → τ.inp = none) {c : Cmd}
    {σ τ : State} {o : Outcome} (h : Exec P c σ o τ) : σ.inp = none → τ.inp = none := by
  induction h with
  | read h => intro h'; obtain ⟨i, hi⟩ := h.inp; rw [h'] at hi; cases hi
  | readln h _ => intro h'; obtain ⟨i, hi⟩ := h.inp; rw [h'] at hi; cases hi
  | skipLine h => cases h with | mk h _ => intro h'; rw [h'] at h; cases h
  | call _ h => exact hP _ _ _ _ h
  | whileNext _ _ _ _ ih1 ih2 => exact fun h => ih2 (ih1 h)
  | repeatNext _ _ _ _ ih1 ih2 => exact fun h => ih2 (ih1 h)
  | loopNext _ _ _ _ _ ih1 ih2 => exact fun h => ih2 (ih1 h)
  | cons _ _ ih1 ih2 => exact fun h => ih2 (ih1 h)
  | empty | assign _ | assignAt _ _ _ | thenFalse _ | whileEnd _ | break_ | continue_ | lastNo _ | loopEnd _
  | write _ _ | newline _ => exact id
  | thenTrue _ _ ih | elseTrue _ _ ih | elseFalse _ _ ih | for_ _ _ _ _ ih | case_ _ _ ih
  | whileBreak _ _ ih | loopBreak _ _ ih | lastYes _ _ ih | moreYes _ _ ih | moreNo _ _ ih => exact ih
  | repeatEnd _ _ _ ih => exact ih
  | consStop _ _ ih => exact ih
  | repeatBreak _ ih | block _ ih | one _ ih | otherwise _ ih => exact ih

theorem calls_inp (D : Decls) : ∀ d q vs σ τ, Calls D d q vs σ τ → σ.inp = none → τ.inp = none
  | 0, _, _, _, _, h => h.elim
  | d + 1, q, vs, σ, τ, h => by
    obtain ⟨decl, τ', _, h2, rfl⟩ := h
    intro h0
    have h3 : τ'.inp = none := exec_inp (calls_inp D d) h2 h0
    exact h3

/-! ### The variables of the procedure -/

/-- The variables and procedures of the procedure, if its frame is at byte `fp`. -/
def calleeEnv (Γ : Env) (q : Proc) (decl : Decl) (fp : Nat) : Env where
  level := q.level + 1
  vars := decl.vars
  procs := decl.procs
  addr x := if x.level ≤ q.level then Γ.addr x
    else ((fp : Int) + x.off + (if 0 ≤ x.off then 10 else 0)).toNat

section
variable {Γ : Env} {D : Decls} {q : Proc} {decl : Decl} {fp b : Nat}

theorem callee_outer {x : Variable} (h : x.level ≤ q.level) :
    (calleeEnv Γ q decl fp).addr x = Γ.addr x := by
  simp only [calleeEnv]; rw [if_pos h]

theorem callee_owns {x : Variable} (h : x.level ≤ q.level) (a : Nat) :
    (calleeEnv Γ q decl fp).Owns x a ↔ Γ.Owns x a := by
  unfold Env.Owns; rw [callee_outer h]

/-- Where the variables of the procedure itself are. -/
theorem callee_own (hd : decl.Ok D q) (hn : 2 * q.parms.length ≤ fp) (he : fp % 2 = 0) {x : Variable}
    (hx : decl.vars x) (hl : ¬ x.level ≤ q.level) :
    (x ∈ parmVars (q.level + 1) q.parms ∧ (calleeEnv Γ q decl fp).addr x = (fp + x.off : Int) ∧
        fp ≤ (calleeEnv Γ q decl fp).addr x + 2 * q.parms.length ∧
        (calleeEnv Γ q decl fp).addr x + 2 ≤ fp ∧ x.off < 0 ∧
        (calleeEnv Γ q decl fp).addr x % 2 = 0) ∨
      (((calleeEnv Γ q decl fp).addr x : Int) = fp + x.off + 10 ∧ 0 ≤ x.off ∧
        (calleeEnv Γ q decl fp).addr x + x.ty.size ≤ fp + 10 + decl.size ∧
        (x.ty.size = 2 → (calleeEnv Γ q decl fp).addr x % 2 = 0)) := by
  have hlev : x.level = q.level + 1 := by have := hd.outer x hx; omega
  have e : (calleeEnv Γ q decl fp).addr x =
      ((fp : Int) + x.off + (if 0 ≤ x.off then 10 else 0)).toNat := by
    simp only [calleeEnv]; rw [if_neg hl]
  rw [e]
  rcases hd.own x hx hlev with h | ⟨h1, h2, h3⟩
  · obtain ⟨i, i1, i2, i3, i4⟩ := parmVars_mem h
    have h0 : ¬ 0 ≤ x.off := by omega
    rw [if_neg h0]
    exact .inl ⟨h, by omega, by omega, by omega, by omega, by omega⟩
  · rw [if_pos h1]
    exact .inr ⟨by omega, h1, by omega, fun h => by have := h3 h; omega⟩

theorem owns_word (hΓ : Γ.Ok) {x : Variable} (hx : Γ.vars x) {a : Nat} (h : Γ.Owns x a) :
    a / 2 = Γ.addr x / 2 := by
  have hs := byteSize_cases x.ty
  have := hΓ.aligned x hx
  unfold Env.Owns at h
  omega

theorem callee_above (hd : decl.Ok D q) (hn : 2 * q.parms.length ≤ fp) (he : fp % 2 = 0) {x : Variable}
    (hx : decl.vars x) (hl : ¬ x.level ≤ q.level) {a : Nat} (h : (calleeEnv Γ q decl fp).Owns x a) :
    (fp ≤ a + 2 * q.parms.length ∧ a < fp ∧ x.off < 0 ∧ x.has ((a : Int) - fp)) ∨
      (fp + 10 ≤ a ∧ a < fp + 10 + decl.size ∧ 0 ≤ x.off ∧ x.has ((a : Int) - fp - 10)) := by
  have hs := byteSize_cases x.ty
  unfold Env.Owns at h
  unfold Variable.has
  rcases callee_own (Γ := Γ) hd hn he hx hl with ⟨_, h1, h2, h3, h4, _⟩ | ⟨h1, h2, h3, h4⟩
  · left; omega
  · right; omega

theorem callee_ok (hΓ : Γ.Ok) (hq : q.Ok Γ.level) (hd : decl.Ok D q)
    (hv : ∀ x : Variable, x.level ≤ q.level → (Γ.vars x ↔ decl.vars x))
    (hb : ∀ x, Γ.vars x → Γ.addr x / 2 ≤ b) (hn : 2 * b + 2 * q.parms.length + 2 ≤ fp) (he : fp % 2 = 0) :
    (calleeEnv Γ q decl fp).Ok := by
  have hn' : 2 * q.parms.length ≤ fp := by omega
  obtain ⟨q1, q2, q3, q4⟩ := hq
  refine ⟨by show q.level + 1 ≤ 255; omega, hd.outer, ?_, ?_, ?_, ?_, hd.procs⟩
  · intro x hx h0
    exact hΓ.offset0 x ((hv x (by omega)).2 hx) h0
  · intro x hx h0
    by_cases hl : x.level ≤ q.level
    · exact hΓ.offset x ((hv x hl).2 hx) h0
    · have := hd.size
      have hs := byteSize_cases x.ty
      rcases hd.own x hx (by have := hd.outer x hx; omega) with h | ⟨h1, h2, h3⟩
      · obtain ⟨i, i1, i2, i3, i4⟩ := parmVars_mem h
        omega
      · omega
  · intro x hx h2
    by_cases hl : x.level ≤ q.level
    · rw [callee_outer hl]; exact hΓ.aligned x ((hv x hl).2 hx) h2
    · rcases callee_own (Γ := Γ) hd hn' he hx hl with ⟨_, _, _, _, _, h⟩ | ⟨_, _, _, h⟩
      · exact h
      · exact h h2
  · intro x y a hx hy ha hb'
    by_cases hlx : x.level ≤ q.level <;> by_cases hly : y.level ≤ q.level
    · exact hΓ.disjoint x y a ((hv x hlx).2 hx) ((hv y hly).2 hy) ((callee_owns hlx a).1 ha)
        ((callee_owns hly a).1 hb')
    · exfalso
      have h1 := owns_word hΓ ((hv x hlx).2 hx) ((callee_owns hlx a).1 ha)
      have h2 := hb x ((hv x hlx).2 hx)
      have h3 := callee_above hd hn' he hy hly hb'
      omega
    · exfalso
      have h1 := owns_word hΓ ((hv y hly).2 hy) ((callee_owns hly a).1 hb')
      have h2 := hb y ((hv y hly).2 hy)
      have h3 := callee_above hd hn' he hx hlx ha
      omega
    · have ex : x.level = q.level + 1 := by have := hd.outer x hx; omega
      have ey : y.level = q.level + 1 := by have := hd.outer y hy; omega
      rcases callee_above hd hn' he hx hlx ha with ⟨h1, h2, h3, h4⟩ | ⟨h1, h2, h3, h4⟩ <;>
        rcases callee_above hd hn' he hy hly hb' with ⟨g1, g2, g3, g4⟩ | ⟨g1, g2, g3, g4⟩
      · exact hd.disjoint x y _ hx hy ex ey h4 g4
      · omega
      · omega
      · exact hd.disjoint x y _ hx hy ex ey h4 g4

theorem callee_apart (hd : decl.Ok D q)
    (hv : ∀ x : Variable, x.level ≤ q.level → (Γ.vars x ↔ decl.vars x)) {b' : Nat} (hb' : b ≤ b')
    (hn : 2 * b + 2 * q.parms.length + 2 ≤ fp) (he : fp % 2 = 0) {j : Nat} (h : Γ.Apart b j) :
    (calleeEnv Γ q decl fp).Apart b' j := by
  refine ⟨Nat.le_trans h.1 hb', fun y a hy ha => ?_⟩
  by_cases hl : y.level ≤ q.level
  · exact h.2 y a ((hv y hl).2 hy) ((callee_owns hl a).1 ha)
  · have := callee_above hd (by omega) he hy hl ha
    have := h.1
    omega

theorem callee_in (hΓ : Γ.Ok) (hd : decl.Ok D q) (hq : q.Ok Γ.level)
    (hv : ∀ x : Variable, x.level ≤ q.level → (Γ.vars x ↔ decl.vars x)) {s t : VM} (hi : Γ.In s b)
    {T : Nat} (hn : b + q.parms.length ≤ T) (hT : T + 5 + decl.size / 2 < s.words) (hw : s.words ≤ 32768)
    {f : Word} (hf : LinkIn s (Γ.Apart b) (Γ.level - q.level) s.fp f)
    (ew : t.words = s.words) (es : t.spb = s.spb) (ef : t.fp.toNat = 2 * T + 2)
    (el : t.lsp.toNat < 256) (em : ∀ j, j ≤ T → t.mem j = s.mem j) (e1 : t.mem (T + 1) = f)
    (e5 : (t.mem (T + 5)).toNat % 256 = q.level + 1) :
    (calleeEnv Γ q decl (2 * T + 2)).In t (T + 5 + decl.size / 2) := by
  have hn' : 2 * b + 2 * q.parms.length + 2 ≤ 2 * T + 2 := by omega
  have hev := hd.size
  have hap : ∀ j, Γ.Apart b j → (calleeEnv Γ q decl (2 * T + 2)).Apart (T + 5 + decl.size / 2) j :=
    fun j h => callee_apart hd hv (by omega) hn' (by omega) h
  have hme : ∀ j, Γ.Apart b j → t.mem j = s.mem j := fun j h => em j (by have := h.1; omega)
  have hfr : ∀ j, j = T + 1 ∨ j = T + 5 →
      (calleeEnv Γ q decl (2 * T + 2)).Apart (T + 5 + decl.size / 2) j := by
    intro j hj
    refine ⟨by omega, fun y a hy ha => ?_⟩
    by_cases hl : y.level ≤ q.level
    · have ha' := (callee_owns hl a).1 ha
      have h2 := hi.inside y ((hv y hl).2 hy)
      have h3 := owns_word hΓ ((hv y hl).2 hy) ha'
      omega
    · have := callee_above hd (by omega) (by omega) hy hl ha
      omega
  have hstep : ∀ d g, LinkIn s (Γ.Apart b) (Γ.level - q.level + d) s.fp g →
      LinkIn t ((calleeEnv Γ q decl (2 * T + 2)).Apart (T + 5 + decl.size / 2)) (d + 1) t.fp g := by
    intro d g hg
    have h1 := linkIn_mono hap (linkIn_congr ew hme (linkIn_split hf hg))
    have e : t.fp.toNat / 2 = T + 1 := by omega
    refine .out (by omega) (by rw [e]; exact hfr _ (.inl rfl)) ?_
    rw [e, e1]; exact h1
  refine ⟨?_, by omega, ?_, ?_, ?_, el⟩
  · intro x hx
    by_cases hl : x.level ≤ q.level
    · rw [callee_outer hl]
      have := hi.inside x ((hv x hl).2 hx)
      omega
    · have hs := byteSize_cases x.ty
      rcases callee_own (Γ := Γ) hd (show 2 * q.parms.length ≤ 2 * T + 2 by omega) (by omega) hx hl with h | h
      · omega
      · omega
  · intro x hx h0
    rw [callee_outer (by omega), es]
    exact hi.global x ((hv x (by omega)).2 hx) h0
  · intro x hx h0
    by_cases hl : x.level ≤ q.level
    · obtain ⟨g, g1, g2⟩ := hi.frame x ((hv x hl).2 hx) h0
      refine ⟨g, ?_, by rw [callee_outer hl]; exact g2⟩
      have e : Γ.level - x.level = Γ.level - q.level + (q.level - x.level) := by have := hq.1; omega
      rw [e] at g1
      have := hstep _ _ g1
      have e2 : (calleeEnv Γ q decl (2 * T + 2)).level - x.level = q.level - x.level + 1 := by
        show q.level + 1 - x.level = _; omega
      rw [e2]; exact this
    · refine ⟨t.fp, ?_, ?_⟩
      · have e2 : (calleeEnv Γ q decl (2 * T + 2)).level - x.level = 0 := by
          show q.level + 1 - x.level = _; omega
        rw [e2]; exact .here _
      · rw [ef]
        have hs := byteSize_cases x.ty
        rcases callee_own (Γ := Γ) hd (show 2 * q.parms.length ≤ 2 * T + 2 by omega) (by omega) hx hl with
          ⟨_, h1, h2, h3, h4, _⟩ | ⟨h1, h2, h3, _⟩
        · rw [if_neg (by omega)]; omega
        · rw [if_pos h2]; omega
  · intro j hj
    match j with
    | 0 =>
      refine ⟨t.fp, .here _, ?_, ?_⟩
      · have : t.fp.toNat / 2 + 4 = T + 5 := by omega
        rw [this]; exact hfr _ (.inr rfl)
      · have : t.fp.toNat / 2 + 4 = T + 5 := by omega
        rw [this, e5]; rfl
    | j + 1 =>
      have hj' : j ≤ q.level := by have : j + 1 ≤ q.level + 1 := hj; omega
      have := hq.1
      obtain ⟨g, g1, g2, g3⟩ := hi.levels (Γ.level - q.level + j) (by omega)
      refine ⟨g, hstep _ _ g1, hap _ g2, ?_⟩
      rw [hme _ g2, g3]
      show _ = q.level + 1 - (j + 1)
      omega

theorem callee_holds (hΓ : Γ.Ok) (hd : decl.Ok D q)
    (hv : ∀ x : Variable, x.level ≤ q.level → (Γ.vars x ↔ decl.vars x)) {s t : VM} (hi : Γ.In s b)
    {T : Nat} (hn : b + q.parms.length ≤ T) {σ : State} (hh : Γ.Holds s.mem σ.store) {vs : List Val}
    (ht : vs.map Val.ty = q.parms) (hr : ∀ v ∈ vs, v.Ranged)
    (hp : ∀ i v, vs[i]? = some v → s.mem (T - vs.length + 1 + i) = v.word)
    (em : ∀ j, j ≤ T → t.mem j = s.mem j) :
    (calleeEnv Γ q decl (2 * T + 2)).Holds t.mem (σ.enter q (vs.map Val.trim)).store := by
  intro x v hx hxv
  simp only [State.enter] at hxv
  have hlen : vs.length = q.parms.length := by rw [← ht]; simp
  by_cases hl : x.level ≤ q.level
  · rw [if_pos hl] at hxv
    obtain ⟨h1, h2, h3⟩ := hh x v ((hv x hl).2 hx) hxv
    have hin := hi.inside x ((hv x hl).2 hx)
    rw [callee_outer hl]
    refine ⟨h1, fun h => ?_, fun h => ?_⟩
    · rw [em _ (by omega)]; exact h2 h
    · unfold byte; rw [em _ (by omega)]; exact h3 h
  · rw [if_neg hl] at hxv
    obtain ⟨i, i1, i2, i3, i4⟩ := valueIn_parm (by simp [hlen]) hxv
    rw [List.getElem?_map] at i2
    cases hvi : vs[i]? with
    | none => rw [hvi] at i2; cases i2
    | some w =>
      rw [hvi] at i2
      cases i2
      have hlt : i < vs.length := (List.getElem?_eq_some_iff.1 hvi).1
      have hw : w.ty = x.ty := by
        rw [← ht, List.getElem?_map, hvi] at i1
        exact Option.some.inj i1
      obtain ⟨f1, f2, f3⟩ := trim_fits (hr w (List.mem_of_getElem? hvi)) hw
      have ha : (calleeEnv Γ q decl (2 * T + 2)).addr x = 2 * (T - vs.length + 1 + i) := by
        simp only [calleeEnv]
        rw [if_neg hl, if_neg (by omega)]
        omega
      have hm : t.mem (T - vs.length + 1 + i) = w.word := by
        rw [em _ (by omega)]; exact hp i w hvi
      refine ⟨f1, fun h => ?_, fun h => ?_⟩
      · rw [ha, Nat.mul_div_cancel_left _ (by omega), hm, f2 h]
      · rw [ha]
        unfold byte
        rw [Nat.mul_div_cancel_left _ (by omega), Nat.mul_mod_right, hm, f3 h]
        apply BitVec.eq_of_toNat_eq
        simp

theorem callee_output (hd : decl.Ok D q)
    (hv : ∀ x : Variable, x.level ≤ q.level → (Γ.vars x ↔ decl.vars x)) {s t : VM}
    {T : Nat} (hn : b + q.parms.length ≤ T) {lib : Lib} {ro text : List Byte}
    (ho : Γ.Output lib ro s b text) (em : ∀ j, j ≤ T → t.mem j = s.mem j) (eio : t.io = s.io)
    (es : t.spb = s.spb) (er : t.rop = s.rop) {b' : Nat} (hb' : b ≤ b') :
    (calleeEnv Γ q decl (2 * T + 2)).Output lib ro t b' text := by
  obtain ⟨h1, h2, h3, h4, h5, h6, h7, h8, h9, h10⟩ := ho
  have hf : fileText t = fileText s := by funext f; unfold fileText; rw [eio]
  refine ⟨h1, ?_, by rw [hf]; exact h3, by rw [es]; exact h4, ?_, ?_, ?_, ?_, ?_, ?_⟩
  · exact ⟨h2.number, by rw [eio, hf]; exact h2.isOpen⟩
  · rw [es]; omega
  · rw [es, em _ (by omega)]; exact h6
  · intro y a hy ha
    rw [es]
    by_cases hl : y.level ≤ q.level
    · exact h7 y a ((hv y hl).2 hy) ((callee_owns hl a).1 ha)
    · have := callee_above hd (by omega) (by omega) hy hl ha
      omega
  · rw [er]; omega
  · intro j hj
    have := h9 j hj
    unfold byte at this ⊢
    rw [er, em _ (by omega)]; exact this
  · intro y a hy ha
    rw [er]
    by_cases hl : y.level ≤ q.level
    · exact h10 y a ((hv y hl).2 hy) ((callee_owns hl a).1 ha)
    · have := callee_above hd (by omega) (by omega) hy hl ha
      omega

theorem callee_input (hd : decl.Ok D q)
    (hv : ∀ x : Variable, x.level ≤ q.level → (Γ.vars x ↔ decl.vars x)) {s t : VM}
    {T : Nat} (hn : b + q.parms.length ≤ T) {lib : Lib} {i : Inp}
    (ho : Γ.Input lib s b i) (em : ∀ j, j ≤ T → t.mem j = s.mem j) (eio : t.io = s.io)
    (es : t.spb = s.spb) {b' : Nat} (hb' : b ≤ b') :
    (calleeEnv Γ q decl (2 * T + 2)).Input lib t b' i := by
  obtain ⟨h1, ⟨pos, h2, h3⟩, h4, h5, h6, h7, h8⟩ := ho
  have hf : fileText t = fileText s := by funext f; unfold fileText; rw [eio]
  refine ⟨h1, ⟨pos, ?_, by rw [hf]; exact h3⟩, by rw [eio]; exact h4, by rw [es]; exact h5, ?_, ?_, ?_⟩
  · exact ⟨h2.number, by rw [eio]; exact h2.mode, by rw [eio]; exact h2.isOpen⟩
  · rw [es]; omega
  · rw [es, em _ (by omega)]; exact h7
  · intro y a hy ha
    rw [es]
    by_cases hl : y.level ≤ q.level
    · exact h8 y a ((hv y hl).2 hy) ((callee_owns hl a).1 ha)
    · have := callee_above hd (by omega) (by omega) hy hl ha
      omega

end

/-! ### The call -/

/-- Room for variables on the stack. -/
def space (n : Int) : List OpType := if n = 0 then [] else [ins .inds 0 n]

/-- The code of a procedure. -/
def procCode (g : Cfg) (lb : Nat) (decl : Decl) (m l : Nat) (r : List Byte) : List OpType :=
  labI lb :: (space decl.size ++ (codeS g decl.body m l ⟨0, 0, 0, 0, 0, r⟩ ++
    (space (-(decl.size : Int)) ++ [ins .ret 0 0])))

/-- The code of the procedure is in the program, after its label or where the jump after its label
goes. -/
def PlacedAt (p : List OpType) (ro : List Byte) (q : Proc) (decl : Decl) : Prop :=
  ∃ (g : Cfg) (k0 k1 lb m l : Nat) (r : List Byte), g.level = q.level + 1 ∧
    p[k0]? = some (labI q.label) ∧ (k1 = k0 + 1 ∨ p[k0 + 1]? = some (ins .jmp 0 (lb : Int))) ∧
    At p k1 (procCode g lb decl m l r) ∧ r ++ decl.body.ro g.pad <+: ro

theorem space_runs {lib : Lib} (s : VM) (n : Int) :
    Runs lib (space n) s { s with sp := s.sp + BitVec.ofInt 16 n } := by
  unfold space
  split
  · next h =>
    subst h
    have : ({ s with sp := s.sp + BitVec.ofInt 16 0 } : VM) = s := by
      have : s.sp + BitVec.ofInt 16 0 = s.sp := by simp
      rw [this]
    rw [this]; exact .nil s
  · exact inds_runs s n

theorem calls_ok {lib : Lib} {addr : Nat → Word} {p : List OpType} {ro : List Byte} {wr : Bool} {D : Decls}
    {c : Nat → Nat} (hu : Uniq p) (hD : ∀ q decl, D q = some decl → decl.Ok D q)
    (hpl : ∀ q decl, D q = some decl → PlacedAt p ro q decl)
    (hadd : ∀ (k : Nat) i, p[k]? = some i → i.op = Op.pcal.toByte → addr (k + 1) = addr k + 4#16)
    (hc : D.Room c) : ∀ (d : Nat) (Γ : Env) (b : Nat), Γ.Ok → Sees D Γ.vars Γ.procs →
    CallsDo lib addr p Γ ro b wr (c d) (Calls D d)
  | 0, _, _, _, _ => fun _ _ _ _ _ _ _ h => h.elim
  | d + 1, Γ, b, hΓ, hS => by
    intro q vs σ τ k s hq hP hty hr hpk hi hh he hb hp hf
    obtain ⟨decl, τ', hd1, hex, rfl⟩ := hP
    obtain ⟨decl', hd1', hv⟩ := hS q hq
    rw [hd1] at hd1'
    cases hd1'
    have hd := hD q decl hd1
    obtain ⟨g, k0, k1, lb, m, l, r, g1, p0, p1, pat, pro⟩ := hpl q decl hd1
    have hlen : vs.length = q.parms.length := by rw [← hty]; simp
    have hroom := hc d q decl hd1
    obtain ⟨hf1, hf2⟩ := hf
    have hqo := hΓ.procs q hq
    obtain ⟨q1, q2, q3, q4⟩ := hqo
    have hev := hd.size
    have hsp : s.sp.toNat = 2 * s.top := by unfold VM.top; omega
    generalize hT : s.top = T at *
    have htop : s.sp.toNat / 2 = T := hT
    -- the frame of the level of the declaration
    have hi0 : Γ.In { s with pc := addr k } b := hi.congr rfl rfl rfl rfl (fun _ _ _ => rfl)
    have hl1 := hΓ.level
    obtain ⟨f, f1, f2⟩ := findFrame_link (s := { s with pc := addr k }) (Q := Γ.Apart b)
      (fun j hj => by have := hj.1; have := hi.bound; show j < s.words; omega)
      (Γ.level - q.level) Γ.level searchFuel s.fp (by omega) (by unfold searchFuel; omega)
      (fun j hj => hi0.levels j (by omega))
    have e0 : Γ.level - (Γ.level - q.level) = (BitVec.ofNat 8 (q.level + 1)).toNat - 1 := by
      simp; omega
    rw [e0] at f2
    have hne : BitVec.ofNat 8 (q.level + 1) ≠ 0 := by
      intro h
      have := congrArg BitVec.toNat h
      simp at this
      omega
    have hcall := procedureCall_eq { s with pc := addr k } (BitVec.ofNat 8 (q.level + 1)) f hne f2
      (by show s.top + 5 < s.words; omega) (by show s.top + 5 < 32768; omega)
    have ea : (ins .pcal ((q.level + 1 : Nat) : Int) (q.label : Int)).arg1 = BitVec.ofNat 8 (q.level + 1) := by
      simp only [ins, show hasArg8 Op.pcal.toByte = true from rfl, if_true]
      exact BitVec.ofInt_natCast ..
    have ea2 : (ins .pcal ((q.level + 1 : Nat) : Int) (q.label : Int)).arg2 = BitVec.ofNat 16 q.label := by
      simp only [ins, show hasArg16 Op.pcal.toByte = true from rfl, if_true]
      exact BitVec.ofInt_natCast ..
    have hst : ({ s with pc := addr k } : VM).top = T := hT
    rw [hst] at hcall
    simp only at hcall
    generalize hm5 : updW (updW (updW (updW (updW s.mem (T + 1) f) (T + 2) s.fp) (T + 3)
        (addr k + 4#16)) (T + 4) s.csp) (T + 5)
        ((s.lsp <<< 8) ||| (BitVec.ofNat 8 (q.level + 1)).zeroExtend 16) = m5 at hcall
    have em : ∀ j, j ≤ T → m5 j = s.mem j := by
      intro j hj
      rw [← hm5]
      simp only [updW]
      repeat rw [if_neg (by omega)]
    have w1 : m5 (T + 1) = f := by rw [← hm5]; simp [updW]
    have w2 : m5 (T + 2) = s.fp := by rw [← hm5]; simp [updW]
    have w3 : m5 (T + 3) = addr k + 4#16 := by rw [← hm5]; simp [updW]
    have w4 : m5 (T + 4) = s.csp := by rw [← hm5]; simp [updW]
    have w5 : m5 (T + 5) = (s.lsp <<< 8) ||| (BitVec.ofNat 8 (q.level + 1)).zeroExtend 16 := by
      rw [← hm5]; simp [updW]
    generalize hs1 : ({ s with
        sp := s.sp + 10#16
        fp := s.sp + 2#16
        lsp := (BitVec.ofNat 8 (q.level + 1)).zeroExtend 16
        mem := m5 } : VM) = s1
    have st1 : PSteps lib addr p (k, s) (k0, s1) := by
      have hx : pexec32 lib { s with pc := addr k } (some .pcal)
          (ins .pcal ((q.level + 1 : Nat) : Int) (q.label : Int)).arg1 (addr k0) = .ok (eNOERROR,
            { s1 with pc := addr k0 }) := by
        rw [ea]
        simp only [pexec32, hcall, Res.ok_bind]
        rw [← hs1]
      have := PStep.call (lib := lib) (addr := addr) (s := s) hpk rfl (by rw [ea2]; exact label_at hu p0) hx
      have e : ({ ({ s1 with pc := addr k0 } : VM) with pc := s.pc } : VM) = s1 := by rw [← hs1]
      rw [e] at this
      exact one_step this
    have st2 : PSteps lib addr p (k, s) (k1 + 1, s1) := by
      refine (st1.append (label_step p0 s1)).append ?_
      have hb := label_step (lib := lib) (addr := addr) pat.head s1
      rcases p1 with rfl | p1
      · exact hb
      · exact (jmp_step p1 (label_at hu pat.head) s1).append hb
    have hat := pat.tail
    have st3 := st2.append ((space_runs (lib := lib) s1 decl.size).steps (addr := addr) hat.left)
    generalize hs2 : ({ s1 with sp := s1.sp + BitVec.ofInt 16 decl.size } : VM) = s2 at st3
    have sp2 : s2.sp.toNat = 2 * T + 10 + decl.size := by
      rw [← hs2, ← hs1, BitVec.ofInt_natCast]
      simp only [BitVec.toNat_add, BitVec.toNat_ofNat]
      omega
    have top2 : s2.top = T + 5 + decl.size / 2 := by unfold VM.top; omega
    have mem2 : s2.mem = m5 := by rw [← hs2, ← hs1]
    have io2 : s2.io = s.io := by rw [← hs2, ← hs1]
    have wd2 : s2.words = s.words := by rw [← hs2, ← hs1]
    have hΓ' : (calleeEnv Γ q decl (2 * T + 2)).Ok :=
      callee_ok hΓ ⟨q1, q2, q3, q4⟩ hd hv hi.inside (by omega) (by omega)
    have hi' : (calleeEnv Γ q decl (2 * T + 2)).In s2 (T + 5 + decl.size / 2) := by
      refine callee_in hΓ hd ⟨q1, q2, q3, q4⟩ hv hi0 (by omega) (by show _ < s.words; omega) hf2 f1
        (by rw [wd2]) (by rw [← hs2, ← hs1]) ?_ ?_ ?_ ?_ ?_
      · rw [← hs2, ← hs1]
        simp only [BitVec.toNat_add, BitVec.toNat_ofNat]
        omega
      · rw [← hs2, ← hs1]
        simp only [BitVec.zeroExtend, BitVec.toNat_setWidth, BitVec.toNat_ofNat]
        omega
      · intro j hj; rw [mem2]; exact em j hj
      · rw [mem2]; exact w1
      · rw [mem2, w5]; exact levelWord_low _ _ (by omega)
    have hh' : Good lib (calleeEnv Γ q decl (2 * T + 2)) ro (T + 5 + decl.size / 2) wr s2
        (σ.enter q (vs.map Val.trim)) := by
      refine ⟨⟨callee_holds hΓ hd hv hi (by omega) hh.has.holds hty hr hp ?_, fun text ht => ?_,
        fun i hin => ?_⟩, hh.quiet⟩
      · intro j hj; rw [mem2]; exact em j hj
      · exact callee_output hd hv (by omega) (hh.has.output text ht) (fun j hj => by rw [mem2]; exact em j hj)
          io2 (by rw [← hs2, ← hs1]) (by rw [← hs2, ← hs1]) (by omega)
      · exact callee_input hd hv (by omega) (hh.has.input i hin) (fun j hj => by rw [mem2]; exact em j hj)
          io2 (by rw [← hs2, ← hs1]) (by omega)
    obtain ⟨t, t1, t2, t3, t4⟩ := sim lib addr (T + 5 + decl.size / 2) ro wr hΓ' g1 hu
      (calls_ok hu hD hpl hadd hc d _ _ hΓ' hd.sees) hex m l _ _ s2 false false hd.body pro hat.right.left hi' hh'
      (by omega) (by omega) ⟨by omega, by omega⟩
    simp only [BitVec.add_zero] at t2 t3
    have hat2 := hat.right.right
    have st4 := (st3.append t1).append ((space_runs (lib := lib) t (-(decl.size : Int))).steps (addr := addr) hat2.left)
    generalize ht' : ({ t with sp := t.sp + BitVec.ofInt 16 (-(decl.size : Int)) } : VM) = t' at st4
    have spt : t'.sp = s.sp + 10#16 := by
      rw [← ht']
      show t.sp + _ = _
      rw [t3, ← hs2, ← hs1]
      show s.sp + 10#16 + _ + _ = _
      rw [BitVec.add_assoc, BitVec.ofInt_neg, ← BitVec.sub_eq_add_neg, BitVec.sub_self, BitVec.add_zero]
    have topt : t'.top = T + 5 := by
      unfold VM.top
      rw [spt]
      simp only [BitVec.toNat_add, BitVec.toNat_ofNat]
      omega
    have memt : t'.mem = t.mem := by rw [← ht']
    have wdt : t'.words = s.words := by rw [← ht']; show t.words = _; rw [t2.words, wd2]
    -- the frame is still there
    have hfr : ∀ j, T + 1 ≤ j → j ≤ T + 5 → t.mem j = m5 j := by
      intro j h1 h2
      rw [t2.word (by omega), mem2]
      intro y a hy ha
      by_cases hl : y.level ≤ q.level
      · have h3 := owns_word hΓ ((hv y hl).2 hy) ((callee_owns hl a).1 ha)
        have h4 := hi.inside y ((hv y hl).2 hy)
        omega
      · have := callee_above hd (by omega) (by omega) hy hl ha
        omega
    have hret := ret_eq t' (by omega) (by omega)
    rw [topt, memt, show T + 5 - 1 = T + 4 from rfl, show T + 5 - 2 = T + 3 from rfl,
      show T + 5 - 3 = T + 2 from rfl, hfr (T + 5) (by omega) (by omega), hfr (T + 4) (by omega) (by omega),
      hfr (T + 3) (by omega) (by omega), hfr (T + 2) (by omega) (by omega), w2, w3, w4, w5,
      levelWord_shift _ _ hi.lsp, spt] at hret
    have hklt : k < p.length := (List.getElem?_eq_some_iff.1 hpk).1
    have st5 := PStep.ret (lib := lib) (addr := addr) hat2.right.head rfl hret (k' := k + 1) (by omega)
      (hadd k _ hpk rfl).symm
    have hfin : ∀ x : Word, ({ ({ t' with
          mem := t.mem
          sp := s.sp + 10#16 - 10#16
          lsp := s.lsp
          csp := s.csp
          pc := x
          fp := s.fp } : VM) with pc := t'.pc } : VM) = { s with
        mem := t.mem
        io := t.io } := by
      intro x
      have h1 : t = { s2 with
          sp := t.sp
          mem := t.mem
          io := t.io } := t2.regs
      have h2 := congrArg (fun z : VM => ({ z with
          sp := s.sp + 10#16 - 10#16
          lsp := s.lsp
          csp := s.csp
          fp := s.fp } : VM)) h1
      simp only at h2
      rw [← ht']
      simp only
      rw [h2, BitVec.add_sub_cancel, ← hs2, ← hs1]
    have key : ∀ (j : Nat) (z w : VM), PStep lib addr p (j, t') (k + 1, z) → z = w →
        PStep lib addr p (j, t') (k + 1, w) := fun _ _ _ h e => e ▸ h
    have st6 := key _ _ _ st5 (hfin _)
    refine ⟨_, st4.append (one_step st6), ⟨rfl, fun hw => ?_, fun x hx => ?_, fun x hx0 hx => ?_, ?_⟩, rfl, ?_⟩
    · show t.io = s.io
      rw [t2.quiet hw, io2]
    · show t.io.files x = s.io.files x
      rw [t2.files x hx, io2]
    · show t.io.table x = s.io.table x
      rw [t2.numbers x hx0 hx, io2]
    · intro a ha hno
      have ha' : a / 2 ≤ T - vs.length := by
        have : (s.sp - BitVec.ofNat 16 (2 * vs.length)).toNat = 2 * T - 2 * vs.length := by
          rw [BitVec.toNat_sub_of_le]
          · simp only [BitVec.toNat_ofNat]; omega
          · rw [BitVec.le_def]; simp only [BitVec.toNat_ofNat]; omega
        have h3 : a / 2 ≤ (s.sp - BitVec.ofNat 16 (2 * vs.length)).toNat / 2 := ha
        omega
      show byte t.mem a = byte s.mem a
      rw [t2.kept a (by show a / 2 ≤ s2.top; omega) ?_, mem2]
      · unfold byte; rw [em _ (by omega)]
      · intro y hy ho
        by_cases hl : y.level ≤ q.level
        · exact hno y ((hv y hl).2 hy) ((callee_owns hl a).1 ho)
        · have := callee_above hd (by omega) (by omega) hy hl ho
          omega
    · refine ⟨⟨?_, ?_, ?_⟩, t4.quiet⟩
      · intro x v hx hxv
        simp only [State.leave] at hxv
        by_cases hl : x.level ≤ q.level
        · rw [if_pos hl] at hxv
          have := t4.has.holds x v ((hv x hl).1 hx) hxv
          rw [callee_outer hl] at this
          exact this
        · rw [if_neg hl] at hxv
          obtain ⟨h1, h2, h3⟩ := hh.has.holds x v hx hxv
          have hin := hi.inside x hx
          have hby : ∀ a, Γ.Owns x a → byte t.mem a = byte s.mem a := by
            intro a ha
            have hw := owns_word hΓ hx ha
            rw [t2.kept a (by show a / 2 ≤ s2.top; omega) ?_, mem2]
            · unfold byte; rw [em _ (by omega)]
            · intro y hy ho
              by_cases hly : y.level ≤ q.level
              · have := hΓ.disjoint x y a hx ((hv y hly).2 hy) ha ((callee_owns hly a).1 ho)
                rw [this] at hl; exact hl hly
              · have := callee_above hd (by omega) (by omega) hy hly ho
                omega
          refine ⟨h1, fun hs => ?_, fun hs => ?_⟩
          · rw [← h2 hs]
            have ha := hΓ.aligned x hx hs
            apply Pas.Str.word_of_bytes
            · exact hby _ ⟨by omega, by omega⟩
            · exact hby _ ⟨by omega, by omega⟩
          · rw [← h3 hs]
            exact hby _ ⟨by omega, by omega⟩
      · intro text ht
        have hne0 : σ.out ≠ none := by
          intro h0
          have : τ'.out = none := exec_out (calls_out D d) hex h0
          have ht2 : τ'.out = some text := ht
          rw [this] at ht2; cases ht2
        obtain ⟨text0, h0⟩ := Option.ne_none_iff_exists'.1 hne0
        obtain ⟨a1, a2, a3, a4, a5, a6, a7, a8, a9, a10⟩ := hh.has.output text0 h0
        obtain ⟨b1, b2, b3, b4, b5, b6, b7, b8, b9, b10⟩ := t4.has.output text ht
        have hspb : t.spb = s.spb := by rw [t2.regs, ← hs2, ← hs1]
        have hrop : t.rop = s.rop := by rw [t2.regs, ← hs2, ← hs1]
        rw [hspb] at b6
        exact ⟨a1, ⟨b2.number, b2.isOpen⟩, b3, a4, a5, b6, a7, a8, fun j hj => by
          have := b9 j hj; rw [hrop] at this; exact this, a10⟩
      · intro i hin
        have hne0 : σ.inp ≠ none := by
          intro h0
          have : τ'.inp = none := exec_inp (calls_inp D d) hex h0
          have ht2 : τ'.inp = some i := hin
          rw [this] at ht2; cases ht2
        obtain ⟨i0, h0⟩ := Option.ne_none_iff_exists'.1 hne0
        obtain ⟨a1, a2, a3, a4, a5, a6, a7⟩ := hh.has.input i0 h0
        obtain ⟨b1, ⟨pos, b2, b2'⟩, b3, b4, b5, b6, b7⟩ := t4.has.input i hin
        have hspb : t.spb = s.spb := by rw [t2.regs, ← hs2, ← hs1]
        rw [hspb] at b6
        exact ⟨a1, ⟨pos, ⟨b2.number, b2.mode, b2.isOpen⟩, b2'⟩, b3, a4, a5, b6, a7⟩

end Pas.Src
