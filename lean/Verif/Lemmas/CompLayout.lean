import Verif.Lemmas.CompProgram

/-! The code of programs: labels, places of procedures, and declarations. -/
namespace Pas.Src
open Pas.Spec Pas.Comp

/-! ### Labels -/

theorem cnt_space (v : Nat) (n : Int) : cnt v (space n) = 0 := by
  unfold space
  split
  · rfl
  · rw [cnt_ins (by decide), cnt_nil]

theorem cnt_initial (v : Nat) : cnt v initial = 0 := by
  unfold initial
  rw [cnt_ins, cnt_ins, cnt_ins, cnt_ins, cnt_nil] <;> decide

theorem cnt_jumpOver (v lev l : Nat) (ps : Dcl .procs) : cnt v (jumpOver lev l ps) = 0 := by
  cases ps with
  | nil => rfl
  | cons =>
    simp only [jumpOver]
    split
    · rw [cnt_ins (by decide), cnt_nil]
    · rfl

theorem cnt_codeB (g : Cfg) {lb room : Nat} {st : S .list} {m l v : Nat} {ro : List Byte} (hv : v ≤ 65535)
    (hlb : lb ≤ 65535) (hl : l + st.nlab ≤ 65535) :
    cnt v (codeB g lb room st m l ro) ≤ (if lb = v then 1 else 0) + within l st.nlab v := by
  have h := cnt_codeS g st m l (top0 ro) v hv hl (by simp [top0])
  simp only [extra] at h
  unfold codeB
  rw [cnt_labI hlb hv, cnt_append, cnt_append, cnt_append, cnt_space, cnt_space]
  have : cnt v (if g.level = 0 then initial else []) = 0 := by
    split
    · exact cnt_initial v
    · rfl
  omega

theorem cnt_codeD (line : Nat → Byte × Word) (pad : Byte) {k : DK} (d : Dcl k) : ∀ (lev l : Nat) (ro : List Byte) (r v : Nat),
    v ≤ 65535 → l + d.labels ≤ 65535 → cnt v (d.code line pad lev l ro r) ≤ within l d.labels v := by
  induction d with
  | blk ks gs ps body st ih =>
    intro lev l ro r v hv hl
    simp only [Dcl.labels] at hl
    have h1 := ih lev (l + 1) ro (body.length + 2 + r) v hv (by omega)
    have h2 := cnt_codeB ⟨lev, line, pad⟩ (lb := l + 1) (room := roomOf lev gs) (st := st) (m := st.toks.length + 1 + r)
      (l := l + 1 + ps.labels) (ro := ro ++ ps.ro pad) hv (by omega) (by omega)
    simp only [Dcl.code, Dcl.labels]
    rw [cnt_append, cnt_append, cnt_jumpOver]
    simp only [within] at *; revert h1 h2; (repeat' split) <;> (intros; omega)
  | nil => intro lev l ro r v hv hl; exact Nat.zero_le _
  | cons name parms b rest ihb ihr =>
    intro lev l ro r v hv hl
    simp only [Dcl.labels] at hl
    have h1 := ihb (lev + 1) (l + 1) ro (1 + rest.toks.length + r) v hv (by omega)
    have h2 := ihr lev (l + 1 + b.labels) (ro ++ b.ro pad) r v hv (by omega)
    simp only [Dcl.code, Dcl.labels]
    rw [cnt_labI (by omega) hv, cnt_append, cnt_ins (by decide)]
    simp only [within] at *; revert h1 h2; (repeat' split) <;> (intros; omega)

theorem JOk.space {D : Nat → Prop} (n : Int) : JOk D (space n) := by
  unfold Src.space
  split
  · exact .nil
  · exact .ins (by decide) .nil

theorem JOk.initial {D : Nat → Prop} : JOk D Src.initial :=
  .ins (by decide) (.ins (by decide) (.ins (by decide) (.ins (by decide) .nil)))

theorem vars_append {a b : Scope} {x : Variable} : Scope.vars (a ++ b) x ↔ Scope.vars a x ∨ Scope.vars b x := by
  simp only [Scope.vars, List.mem_append, or_and_right, exists_or]
theorem procs_append {a b : Scope} {x : Proc} : Scope.procs (a ++ b) x ↔ Scope.procs a x ∨ Scope.procs b x := by
  simp only [Scope.procs, List.mem_append, exists_or]

theorem vars_locals' {lev : Nat} {ks : List Cst} {gs : List Group} {x : Variable} (h : Scope.vars (locals lev ks gs) x) :
    Scope.vars (placed lev (firstOffset lev) (orderOf gs)) x :=
  (vars_append.1 h).elim (fun h => (cst_vars h).elim) id

theorem vars_locals {lev : Nat} {ks : List Cst} {gs : List Group} {x : Variable} (h : Scope.vars (locals lev ks gs) x) :
    x.level = lev :=
  (placed_inside _ _ _ (vars_locals' h)).1

theorem procs_locals {lev : Nat} {ks : List Cst} {gs : List Group} {q : Proc} (h : Scope.procs (locals lev ks gs) q) :
    False := by
  rcases procs_append.1 h with h | ⟨n, hn⟩
  · exact cst_procs h
  · exact placed_proc hn

/-- The procedures of a block begin at their labels. -/
theorem heads_mem (line : Nat → Byte × Word) (pad : Byte) {lev : Nat} {n : List Byte} {q : Proc} :
    ∀ (ps : Dcl .procs) {l : Nat} {ro : List Byte} {r : Nat}, (n, Ent.proc q) ∈ ps.heads lev l →
    labI q.label ∈ ps.code line pad lev l ro r
  | .nil, _, _, _, h => by simp [Dcl.heads] at h
  | .cons name parms b rest, l, ro, r, h => by
    simp only [Dcl.heads, List.mem_cons] at h
    simp only [Dcl.code, List.mem_cons, List.mem_append]
    rcases h with h | h
    · injection h with h1 h2
      injection h2 with h2
      subst h2
      exact .inl rfl
    · exact .inr (.inr (.inr (heads_mem line pad rest h)))

/-- All labels that are used are defined. -/
theorem jumps_codeD (line : Nat → Byte × Word) (pad : Byte) {p : List OpType} {k : DK} (d : Dcl k) :
    ∀ (lev l : Nat) (ro : List Byte) (r : Nat) (outer own : Scope), d.Ok lev l outer own →
    (∀ q, Scope.procs (outer ++ own) q → labI q.label ∈ p) → (∀ i ∈ d.code line pad lev l ro r, i ∈ p) →
    JOk (fun v => labI v ∈ p) (d.code line pad lev l ro r) := by
  induction d with
  | blk ks gs ps body st ih =>
    intro lev l ro r outer own hok hq hi
    simp only [Dcl.Ok] at hok
    simp only [Dcl.code] at hi ⊢
    have hloc : ∀ q, Scope.procs (outer ++ (own ++ locals lev ks gs)) q → labI q.label ∈ p := by
      rintro q ⟨n, hn⟩
      simp only [List.mem_append] at hn
      rcases hn with h | h | h
      · exact hq q ⟨n, List.mem_append_left _ h⟩
      · exact hq q ⟨n, List.mem_append_right _ h⟩
      · exact (procs_locals ⟨n, h⟩).elim
    refine .append ?_ (.append (ih _ _ _ _ _ _ hok.2 hloc fun i h => hi i (by simp [h])) ?_)
    · cases ps with
      | nil => exact .nil
      | cons name parms b rest =>
        simp only [jumpOver]
        split
        · exact .jump (by decide) (hi _ (by simp [codeB])) .nil
        · exact .nil
    · refine .lab (.append (.space _) (.append ?_ (.append ?_ (.space _))))
      · split
        · exact .initial
        · exact .nil
      · refine (jumps_codeS _ st _ _ _ false false hok.1.statements).mono ?_
        rintro v (h | ⟨h, _⟩ | ⟨h, _⟩ | ⟨h, _⟩ | ⟨q, h, rfl⟩)
        · exact hi _ (by simp [codeB, h])
        · cases h
        · cases h
        · cases h
        · obtain ⟨n, hn⟩ := h
          rw [← List.append_assoc] at hn
          rcases List.mem_append.1 hn with h | h
          · exact hloc q ⟨n, h⟩
          · exact hi _ (List.mem_append_right _ (List.mem_append_left _ (heads_mem line pad ps h)))
  | nil => intro lev l ro r outer own hok hq hi; exact .nil
  | cons name parms b rest ihb ihr =>
    intro lev l ro r outer own hok hq hi
    simp only [Dcl.Ok] at hok
    simp only [Dcl.code] at hi ⊢
    have hh : ∀ q, Scope.procs (outer ++ (own ++ [(name, Ent.proc ⟨lev, l + 1, parmTypes parms⟩)])) q → labI q.label ∈ p := by
      rintro q ⟨n, hn⟩
      rw [← List.append_assoc] at hn
      rcases List.mem_append.1 hn with h | h
      · exact hq q ⟨n, h⟩
      · simp only [List.mem_singleton, Prod.mk.injEq, Ent.proc.injEq] at h
        obtain ⟨_, rfl⟩ := h
        exact hi _ (List.mem_cons_self ..)
    refine .lab (.append (ihb _ _ _ _ _ _ hok.2.2.1 ?_ fun i h => hi i (by simp [h])) (.ins (by decide)
      (ihr _ _ _ _ _ _ hok.2.2.2 hh fun i h => hi i (by simp [h]))))
    rintro q ⟨n, hn⟩
    rcases List.mem_append.1 hn with h | h
    · exact hh q ⟨n, h⟩
    · obtain ⟨y, hy, _⟩ := mem_parmScope h
      cases hy

/-! ### The places of procedures -/

theorem placed_at (line : Nat → Byte × Word) (pad : Byte) {p : List OpType} {R : List Byte} {k : DK} (d : Dcl k) :
    ∀ (lev l : Nat) (ro : List Byte) (r : Nat) (sc : Scope) (j : Nat), At p j (d.code line pad lev l ro r) →
    ro ++ d.ro pad <+: R → ∀ q decl, (q, decl) ∈ d.decls lev l sc → PlacedAt p R q decl := by
  induction d with
  | blk ks gs ps body st ih =>
    intro lev l ro r sc j hat hro q decl h
    simp only [Dcl.code] at hat
    simp only [Dcl.ro] at hro
    simp only [Dcl.decls] at h
    refine ih _ _ _ _ _ _ hat.right.left ?_ q decl h
    rw [← List.append_assoc] at hro
    exact (List.prefix_append _ _).trans hro
  | nil => intro lev l ro r sc j hat hro q decl h; cases h
  | cons name parms b rest ihb ihr =>
    intro lev l ro r sc j hat hro q decl h
    simp only [Dcl.code] at hat
    simp only [Dcl.ro, ← List.append_assoc] at hro
    simp only [Dcl.decls, List.mem_cons, List.mem_append] at h
    have hat' := hat.tail
    rcases h with h | h | h
    · injection h with h1 h2
      subst h1; subst h2
      cases b with
      | blk ks gs ps body st =>
      simp only [Dcl.code, Dcl.decl, Dcl.size, Dcl.ro, ← List.append_assoc] at hat' hro ⊢
      have hpro : ro ++ ps.ro pad ++ st.ro pad <+: R := (List.prefix_append _ _).trans hro
      simp only [List.append_assoc] at hat'
      have hcode : codeB ⟨lev + 1, line, pad⟩ (l + 1 + 1) (roomOf (lev + 1) gs) st (st.toks.length + 1 + (1 + rest.toks.length + r))
          (l + 1 + 1 + ps.labels) (ro ++ ps.ro pad) ++ [ins .ret 0 0] = procCode ⟨lev + 1, line, pad⟩ (l + 1 + 1)
          (Dcl.decl (lev + 1) (l + 1) (sc ++ [(name, .proc ⟨lev, l + 1, parmTypes parms⟩)] ++ parmScope (lev + 1) parms)
            (.blk ks gs ps body st)) (st.toks.length + 1 + (1 + rest.toks.length + r)) (l + 1 + 1 + ps.labels) (ro ++ ps.ro pad) := by
        simp only [codeB, procCode, Dcl.decl, Dcl.size, roomOf, top0, List.cons_append, List.append_assoc]
        rw [if_neg (by simp)]
        rfl
      have hnext : At p (j + 1 + (jumpOver (lev + 1) (l + 1 + 1) ps).length + (ps.code line pad (lev + 1) (l + 1 + 1) ro
          (body.length + 2 + (1 + rest.toks.length + r))).length) _ := (hat'.right.right)
      rw [show ∀ a b c : List OpType, a ++ ins .ret 0 0 :: c = (a ++ [ins .ret 0 0]) ++ c by simp, hcode] at hnext
      · refine ⟨⟨lev + 1, line, pad⟩, j, _, l + 1 + 1, _, _, _, rfl, hat.head, ?_, hnext.left, hpro⟩
        cases ps with
        | nil => exact .inl rfl
        | cons name' parms' b' rest' =>
          right
          have := hat'.left
          simp only [jumpOver] at this
          rw [if_pos (by omega)] at this
          exact this.head
      · exact []
    · refine ihb _ _ _ _ _ _ hat'.left ?_ q decl h
      exact (List.prefix_append _ _).trans hro
    · exact ihr _ _ _ _ _ _ hat'.right.tail hro q decl h

/-! ### Declarations -/

/-- The labels of procedures are numbered in order. -/
theorem decls_labels {k : DK} (d : Dcl k) : ∀ (lev l : Nat) (sc : Scope), (∀ e ∈ d.decls lev l sc, l < e.1.label ∧
    e.1.label ≤ l + d.labels) ∧ (d.decls lev l sc).Pairwise fun a b => a.1.label ≠ b.1.label := by
  induction d with
  | blk ks gs ps body st ih =>
    intro lev l sc
    obtain ⟨h1, h2⟩ := ih lev (l + 1) (sc ++ locals lev ks gs)
    refine ⟨fun e he => ?_, h2⟩
    have := h1 e he
    simp only [Dcl.labels]
    omega
  | nil => intro lev l sc; simp [Dcl.decls]
  | cons name parms b rest ihb ihr =>
    intro lev l sc
    obtain ⟨h1, h2⟩ := ihb (lev + 1) (l + 1) (sc ++ [(name, .proc ⟨lev, l + 1, parmTypes parms⟩)] ++ parmScope (lev + 1) parms)
    obtain ⟨h3, h4⟩ := ihr lev (l + 1 + b.labels) (sc ++ [(name, .proc ⟨lev, l + 1, parmTypes parms⟩)])
    simp only [Dcl.decls, Dcl.labels]
    constructor
    · intro e he
      simp only [List.mem_cons, List.mem_append] at he
      rcases he with rfl | he | he
      · exact ⟨by show l < l + 1; omega, by show l + 1 ≤ _; omega⟩
      · have := h1 e he; omega
      · have := h3 e he; omega
    · rw [List.pairwise_cons, List.pairwise_append]
      refine ⟨fun e he => ?_, h2, h4, fun e he f hf => ?_⟩
      · show l + 1 ≠ _
        rcases List.mem_append.1 he with he | he
        · have := h1 e he; omega
        · have := h3 e he; omega
      · have := h1 e he
        have := h3 f hf
        omega

theorem declIn_mem {l : List (Proc × Decl)} {q : Proc} {decl : Decl} (h : declIn l q = some decl) : (q, decl) ∈ l := by
  unfold declIn at h
  rw [Option.map_eq_some_iff] at h
  obtain ⟨e, h1, h2⟩ := h
  have h3 := List.find?_some h1
  have h4 := List.mem_of_find?_eq_some h1
  simp only [decide_eq_true_eq] at h3
  subst h2; subst h3
  exact h4

theorem declIn_of_mem {l : List (Proc × Decl)} (hp : l.Pairwise fun a b => a.1.label ≠ b.1.label) {q : Proc} {decl : Decl}
    (h : (q, decl) ∈ l) : declIn l q = some decl := by
  induction l with
  | nil => cases h
  | cons e l ih =>
    rw [List.pairwise_cons] at hp
    unfold declIn at ih ⊢
    rw [List.find?_cons]
    rcases List.mem_cons.1 h with rfl | h
    · simp
    · have : e.1 ≠ q := by
        intro hq
        exact hp.1 _ h (by rw [hq])
      rw [show (decide (e.1 = q)) = false from decide_eq_false this]
      exact ih hp.2 h

/-- Calls nested deep need the room of their statements. -/
theorem callRoom_room (l : List (Proc × Decl)) : (declIn l).Room (callRoom l) := by
  intro d q decl h
  have hm := declIn_mem h
  rw [callRoom]
  generalize callRoom l d = c
  clear h
  induction l with
  | nil => cases hm
  | cons e l ih =>
    simp only [List.foldr_cons]
    rcases List.mem_cons.1 hm with rfl | hm
    · exact Nat.le_max_left _ _
    · exact Nat.le_trans (ih hm) (Nat.le_max_right _ _)

theorem heads_proc {lev : Nat} : ∀ (ps : Dcl .procs) {l : Nat} {n : List Byte} {e : Ent}, (n, e) ∈ ps.heads lev l →
    ∃ q, e = .proc q ∧ q.level = lev
  | .nil, _, _, _, h => by simp [Dcl.heads] at h
  | .cons name parms b rest, l, n, e, h => by
    simp only [Dcl.heads, List.mem_cons] at h
    rcases h with h | h
    · injection h with h1 h2
      subst h2
      exact ⟨_, rfl, rfl⟩
    · exact heads_proc rest h

theorem vars_parms {lev : Nat} {gs : List Group} {x : Variable} (h : Scope.vars (parmScope lev gs) x) :
    x ∈ parmVars lev (parmTypes gs) ∧ x.level = lev := by
  obtain ⟨⟨n, e⟩, hn, hx⟩ := h
  obtain ⟨y, rfl, hm⟩ := mem_parmScope hn
  obtain rfl : x = y := by simpa [Ent.vars] using hx
  obtain ⟨_, _, _, h, _⟩ := parmVars_mem hm
  exact ⟨hm, h⟩

theorem procs_parms {lev : Nat} {gs : List Group} {q : Proc} (h : Scope.procs (parmScope lev gs) q) : False := by
  obtain ⟨n, hn⟩ := h
  obtain ⟨y, hy, hm⟩ := mem_parmScope hn
  cases hy

theorem vars_heads {lev l : Nat} {ps : Dcl .procs} {x : Variable} (h : Scope.vars (ps.heads lev l) x) : False := by
  obtain ⟨⟨n, e⟩, hn, hx⟩ := h
  obtain ⟨q, rfl, _⟩ := heads_proc ps hn
  cases hx

/-- More variables further in. -/
theorem Sees.more {D : Decls} {sc add : Scope} {lev : Nat} (h : Sees D (Scope.vars sc) (Scope.procs sc))
    (hq : ∀ q, Scope.procs sc q → q.level < lev) (hv : ∀ x, Scope.vars add x → x.level = lev)
    (hp : ∀ q, ¬ Scope.procs add q) : Sees D (Scope.vars (sc ++ add)) (Scope.procs (sc ++ add)) := by
  intro q hq'
  rcases procs_append.1 hq' with h' | h'
  · obtain ⟨decl, h1, h2⟩ := h q h'
    refine ⟨decl, h1, fun x hx => ?_⟩
    rw [← h2 x hx, vars_append]
    refine ⟨fun hx' => hx'.elim id fun hx'' => ?_, .inl⟩
    have := hv x hx''
    have := hq q h'
    omega
  · exact absurd h' (hp q)

theorem decl_vars {lev l : Nat} {sc : Scope} {b : Dcl .blk} {x : Variable} (hx : x.level < lev) :
    (b.decl lev l sc).vars x ↔ Scope.vars sc x := by
  cases b with
  | blk ks gs ps body st =>
  simp only [Dcl.decl, vars_append]
  constructor
  · rintro ((h | h) | h)
    · exact h
    · have := vars_locals h; omega
    · exact (vars_heads h).elim
  · exact fun h => .inl (.inl h)

/-- One more procedure. -/
theorem Sees.head {D : Decls} {sc : Scope} {lev l : Nat} {name : List Byte} {parms : List Group} {b : Dcl .blk}
    (h : Sees D (Scope.vars sc) (Scope.procs sc))
    (hD : D ⟨lev, l, parmTypes parms⟩ = some (b.decl (lev + 1) l
      (sc ++ [(name, .proc ⟨lev, l, parmTypes parms⟩)] ++ parmScope (lev + 1) parms))) :
    Sees D (Scope.vars (sc ++ [(name, .proc ⟨lev, l, parmTypes parms⟩)]))
      (Scope.procs (sc ++ [(name, .proc ⟨lev, l, parmTypes parms⟩)])) := by
  have hv : ∀ x, Scope.vars (sc ++ [(name, .proc ⟨lev, l, parmTypes parms⟩)]) x ↔ Scope.vars sc x := by
    intro x
    rw [vars_append]
    refine ⟨fun h => h.elim id fun ⟨e, he, hx⟩ => (by
      rw [List.mem_singleton] at he; subst he; (cases hx)), .inl⟩
  intro q hq
  rcases procs_append.1 hq with h' | ⟨n, h'⟩
  · obtain ⟨decl, h1, h2⟩ := h q h'
    exact ⟨decl, h1, fun x hx => (hv x).trans (h2 x hx)⟩
  · simp only [List.mem_singleton, Prod.mk.injEq, Ent.proc.injEq] at h'
    obtain ⟨_, rfl⟩ := h'
    refine ⟨_, hD, fun x hx => ?_⟩
    have hx : x.level ≤ lev := hx
    rw [decl_vars (by omega)]
    refine Iff.trans ?_ vars_append.symm
    refine ⟨fun h => Or.inl h, fun h => h.elim id fun h => ?_⟩
    have := (vars_parms h).2
    omega

/-- The procedures of a block. -/
theorem Sees.heads {D : Decls} {lev : Nat} : ∀ (ps : Dcl .procs) {l : Nat} {sc : Scope},
    Sees D (Scope.vars sc) (Scope.procs sc) → (∀ e ∈ ps.decls lev l sc, D e.1 = some e.2) →
    Sees D (Scope.vars (sc ++ ps.heads lev l)) (Scope.procs (sc ++ ps.heads lev l))
  | .nil, l, sc, h, _ => by simpa [Dcl.heads] using h
  | .cons name parms b rest, l, sc, h, hD => by
    simp only [Dcl.decls] at hD
    have h1 := Sees.heads rest (h.head (name := name) (hD _ (List.mem_cons_self ..)))
      (fun e he => hD e (List.mem_cons_of_mem _ (List.mem_append_right _ he)))
    simpa only [Dcl.heads, List.append_assoc, List.cons_append, List.nil_append] using h1

theorem parmVars_apart {lev : Nat} {ts : List Ty} {x y : Variable} {a : Int} (hx : x ∈ parmVars lev ts) (hy : y ∈ parmVars lev ts)
    (h1 : x.has a) (h2 : y.has a) : x = y := by
  obtain ⟨i, i1, i2, i3, i4⟩ := parmVars_mem hx
  obtain ⟨j, j1, j2, j3, j4⟩ := parmVars_mem hy
  have s1 : x.ty.size ≤ 2 := by rcases byteSize_cases x.ty with h | h <;> omega
  have s2 : y.ty.size ≤ 2 := by rcases byteSize_cases y.ty with h | h <;> omega
  unfold Variable.has at h1 h2
  have : i = j := by omega
  subst this
  rw [i2] at j2
  cases x; cases y
  simp only [Option.some.injEq] at j2
  simp only at i3 i4 j3 j4
  subst i3 i4 j3 j4 j2
  rfl

theorem placed_cases {lev f : Nat} {o : List (List Byte × Shape)} {x y : Variable} {a : Int}
    (hx : Scope.vars (placed lev f o) x) (hy : Scope.vars (placed lev f o) y) (h1 : x.has a) (h2 : y.has a) : x = y := by
  unfold Variable.has at h1 h2
  rcases placed_apart o lev f hx hy with h | h | h
  · exact h
  · omega
  · omega

/-- The declaration of one procedure is correct. -/
theorem decl_ok {D : Decls} {lev l : Nat} {outer own : Scope} {name : List Byte} {parms : List Group} {b : Dcl .blk}
    (hl : lev ≤ 254) (hparm : (parmTypes parms).length ≤ 16384) (hsize : b.size (lev + 1) ≤ 32766)
    (hok : b.Ok (lev + 1) l (outer ++ (own ++ [(name, .proc ⟨lev, l, parmTypes parms⟩)])) (parmScope (lev + 1) parms))
    (hlab : l + b.labels ≤ 65535) (hsc : ScopeOk lev (outer ++ (own ++ [(name, .proc ⟨lev, l, parmTypes parms⟩)])))
    (hS : Sees D (Scope.vars (outer ++ (own ++ [(name, .proc ⟨lev, l, parmTypes parms⟩)])))
      (Scope.procs (outer ++ (own ++ [(name, .proc ⟨lev, l, parmTypes parms⟩)]))))
    (hD : ∀ e ∈ b.decls (lev + 1) l (outer ++ (own ++ [(name, .proc ⟨lev, l, parmTypes parms⟩)]) ++ parmScope (lev + 1) parms),
      D e.1 = some e.2) :
    (b.decl (lev + 1) l (outer ++ (own ++ [(name, .proc ⟨lev, l, parmTypes parms⟩)]) ++ parmScope (lev + 1) parms)).Ok D
      ⟨lev, l, parmTypes parms⟩ := by
  generalize hO : outer ++ (own ++ [(name, Ent.proc ⟨lev, l, parmTypes parms⟩)]) = O at *
  cases b with
  | blk ks gs ps body st =>
  simp only [Dcl.Ok] at hok
  simp only [Dcl.decls] at hD
  simp only [Dcl.size] at hsize
  simp only [Dcl.labels] at hlab
  obtain ⟨hb, hps⟩ := hok
  have hf : firstOffset (lev + 1) = 0 := by unfold firstOffset; rw [if_neg (by omega)]
  have hlev : ∀ x, Scope.vars O x → x.level ≤ lev := fun x hx => (hsc.vars x hx).outer
  have hfull : ScopeOk (lev + 1) (O ++ parmScope (lev + 1) parms ++ locals (lev + 1) ks gs ++ ps.heads (lev + 1) (l + 1)) :=
    (((hsc.next hl).append (scopeOk_parms (by omega) (by omega) hparm)).append
      (scopeOk_locals (by omega) (by omega))).append (scopeOk_heads ps hps (by omega))
  have hown : ∀ x, Scope.vars (O ++ parmScope (lev + 1) parms ++ locals (lev + 1) ks gs ++ ps.heads (lev + 1) (l + 1)) x →
      x.level = lev + 1 → x ∈ parmVars (lev + 1) (parmTypes parms) ∨ Scope.vars (placed (lev + 1) 0 (orderOf gs)) x := by
    intro x hx hx1
    simp only [vars_append] at hx
    rcases hx with ((h | h) | h) | h
    · have := hlev x h; omega
    · exact .inl (vars_parms h).1
    · have h := vars_locals' h
      rw [hf] at h
      exact .inr h
    · exact (vars_heads h).elim
  have hneg : ∀ (x : Variable) (a : Int), x ∈ parmVars (lev + 1) (parmTypes parms) → x.has a → a < 0 := by
    intro x a hx ha
    obtain ⟨i, i1, i2, i3, i4⟩ := parmVars_mem hx
    have s1 : x.ty.size ≤ 2 := by rcases byteSize_cases x.ty with h | h <;> omega
    unfold Variable.has at ha
    omega
  have hpos : ∀ (x : Variable) (a : Int), Scope.vars (placed (lev + 1) 0 (orderOf gs)) x → x.has a → 0 ≤ a := by
    intro x a hx ha
    have h1 := (placed_inside _ _ _ hx).2.1
    have h1 : ((0 : Nat) : Int) ≤ x.off := h1
    unfold Variable.has at ha
    omega
  simp only [Dcl.decl]
  constructor
  · exact fun x hx => (hfull.vars x hx).outer
  · intro x hx hx1
    refine (hown x hx hx1).imp_right ?_
    intro hm
    have h := placed_inside _ _ _ hm
    obtain ⟨_, h2, h3, h4⟩ := h
    have h2 : ((0 : Nat) : Int) ≤ x.off := h2
    have h3 : x.off + (x.ty.size : Int) ≤ (placedEnd 0 (orderOf gs) : Nat) := h3
    refine ⟨by omega, ?_, h4⟩
    show x.off + (x.ty.size : Int) ≤ (((placedEnd (firstOffset (lev + 1)) (orderOf gs) + 1) / 2 * 2 : Nat) : Int)
    rw [hf]
    omega
  · intro x y a hx hy hx1 hy1 hxa hya
    rcases hown x hx hx1 with h | h <;> rcases hown y hy hy1 with h' | h'
    · exact parmVars_apart h h' hxa hya
    · have := hneg x a h hxa
      have := hpos y a h' hya
      omega
    · have := hpos x a h hxa
      have := hneg y a h' hya
      omega
    · exact placed_cases h h' hxa hya
  · show (placedEnd _ _ + 1) / 2 * 2 % 2 = 0 ∧ (placedEnd _ _ + 1) / 2 * 2 ≤ 32767
    omega
  · exact hfull.procs
  · have hl1 : ∀ q, Scope.procs O q → q.level < lev + 1 := fun q hq => by have := (hsc.procs q hq).1; omega
    have hl2 : ∀ q, Scope.procs (O ++ parmScope (lev + 1) parms) q → q.level < lev + 1 := by
      intro q hq
      rcases procs_append.1 hq with h | h
      · exact hl1 q h
      · exact (procs_parms h).elim
    exact Sees.heads ps ((hS.more hl1 (fun x hx => (vars_parms hx).2) fun q hq => procs_parms hq).more hl2
      (fun x hx => vars_locals hx) fun q hq => procs_locals hq) hD
  · have := hb.statements
    simpa only [List.append_assoc] using this

/-- What is around a block, and how much it declares. -/
def Dcl.Room (lev : Nat) (sc : Scope) : {k : DK} → Dcl k → Prop
  | _, .blk _ gs _ _ _ => placedEnd (firstOffset lev) (orderOf gs) ≤ 32768 ∧ lev ≤ 255 ∧ ∀ q, sc.procs q → q.level < lev
  | _, _ => True

/-- The declarations of blocks and procedures are correct. -/
theorem decls_ok {D : Decls} {k : DK} (d : Dcl k) : ∀ (lev l : Nat) (outer own : Scope), d.Ok lev l outer own →
    l + d.labels ≤ 65535 → d.Room lev (outer ++ own) → ScopeOk lev (outer ++ own) →
    Sees D (Scope.vars (outer ++ own)) (Scope.procs (outer ++ own)) →
    (∀ e ∈ d.decls lev l (outer ++ own), D e.1 = some e.2) → ∀ e ∈ d.decls lev l (outer ++ own), e.2.Ok D e.1 := by
  induction d with
  | blk ks gs ps body st ih =>
    intro lev l outer own hok hlab hblk hsc hS hD
    simp only [Dcl.Ok] at hok
    simp only [Dcl.labels] at hlab
    simp only [Dcl.decls] at hD ⊢
    obtain ⟨h1, h2, h3⟩ := hblk
    have := ih lev (l + 1) outer (own ++ locals lev ks gs) hok.2 (by omega) (by cases ps <;> trivial)
      (by rw [← List.append_assoc]; exact hsc.append (scopeOk_locals h2 h1))
      (by rw [← List.append_assoc]; exact hS.more h3 (fun x hx => vars_locals hx) fun q hq => procs_locals hq)
      (by rw [← List.append_assoc]; exact hD)
    rw [← List.append_assoc] at this
    exact this
  | nil => intro lev l outer own hok hlab hblk hsc hS hD e he; cases he
  | cons name parms b rest ihb ihr =>
    intro lev l outer own hok hlab hblk hsc hS hD
    simp only [Dcl.Ok] at hok
    simp only [Dcl.labels] at hlab
    simp only [Dcl.decls] at hD ⊢
    obtain ⟨⟨h1, h2, h3, h4⟩, h5, h6, h7⟩ := hok
    have ha : outer ++ own ++ [(name, Ent.proc ⟨lev, l + 1, parmTypes parms⟩)] =
      outer ++ (own ++ [(name, Ent.proc ⟨lev, l + 1, parmTypes parms⟩)]) := List.append_assoc ..
    have hsc' := hsc.append (scopeOk_head h1 (l := l + 1) (by omega) h2 name)
    have hS' := hS.head (name := name) (hD _ (List.mem_cons_self ..))
    rw [ha] at hsc' hS' hD ⊢
    have hDb : ∀ e ∈ b.decls (lev + 1) (l + 1) (outer ++ (own ++ [(name, .proc ⟨lev, l + 1, parmTypes parms⟩)]) ++ parmScope (lev + 1) parms),
        D e.1 = some e.2 := fun e he => hD e (List.mem_cons_of_mem _ (List.mem_append_left _ he))
    have hl1 : ∀ q, Scope.procs (outer ++ (own ++ [(name, .proc ⟨lev, l + 1, parmTypes parms⟩)])) q → q.level < lev + 1 :=
      fun q hq => by have := (hsc'.procs q hq).1; omega
    intro e he
    simp only [List.mem_cons, List.mem_append] at he
    rcases he with rfl | he | he
    · exact decl_ok h1 h2 h3 h6 (by omega) hsc' hS' hDb
    · refine ihb (lev + 1) (l + 1) _ _ h6 (by omega) ?_ ((hsc'.next h1).append (scopeOk_parms (by omega) (by omega) h2))
        (hS'.more hl1 (fun x hx => (vars_parms hx).2) fun q hq => procs_parms hq) hDb e he
      cases b with
      | blk ks gs ps body st =>
      simp only [Dcl.size] at h3
      refine ⟨by omega, by omega, fun q hq => ?_⟩
      rcases procs_append.1 hq with h | h
      · exact hl1 q h
      · exact (procs_parms h).elim
    · exact ihr lev (l + 1 + b.labels) _ _ h7 (by omega) (by cases rest <;> trivial) hsc' hS'
        (fun e he => hD e (List.mem_cons_of_mem _ (List.mem_append_right _ he))) e he

end Pas.Src
