import Verif.Lemmas.CompIn

/-! The code of statements does what they mean. -/
namespace Pas.Src
open Pas.Spec Pas.Comp

section
variable {lib : Lib} {addr : Nat → Word} {p : List OpType}

/-- Two words were pushed and popped. -/
theorem two_quiet {s : VM} (hf : Free s 2) (v w : Word) : Quiet s (popN (psh (psh s v) w) 2) := by
  have h1 : (psh s v).top = s.top + 1 := psh_top (hf.mono (by omega))
  refine ⟨?_, fun j hj => ?_⟩
  · have : s.sp + 2#16 + 2#16 - 4#16 = s.sp := by bv_omega
    show ({ s with
      sp := s.sp + 2#16 + 2#16 - 4#16
      mem := updW (updW s.mem (s.top + 1) v) ((psh s v).top + 1) w } : VM) = _
    rw [this]; rfl
  · show updW (updW s.mem (s.top + 1) v) ((psh s v).top + 1) w j = _
    rw [h1, updW_other _ _ (by omega), updW_other _ _ (by omega)]

/-- A comparison of two words that were pushed, followed by a jump. -/
theorem cmp_steps {s : VM} (hf : Free s 2) (v w : Word) {o : Op} {R : Int → Int → Prop}
    (ho : Jump o R) {k l : Nat} (hat : p[k]? = some (ins o 0 (l : Int))) :
    (R v.toInt w.toInt → ∀ k', LabelAt p (BitVec.ofNat 16 l) k' →
      PSteps lib addr p (k, psh (psh s v) w) (k', popN (psh (psh s v) w) 2)) ∧
    (¬ R v.toInt w.toInt →
      PSteps lib addr p (k, psh (psh s v) w) (k + 1, popN (psh (psh s v) w) 2)) := by
  have h1 : (psh s v).top = s.top + 1 := psh_top (hf.mono (by omega))
  have hf' : Free (psh s v) 1 := ⟨by rw [h1]; have := hf.1; show s.top + 1 + 1 < s.words; omega, hf.2⟩
  have h2 : (psh (psh s v) w).top = s.top + 2 := by rw [psh_top hf', h1]
  have o0 : opnd (psh (psh s v) w) 0 = w := by
    show (psh (psh s v) w).mem ((psh (psh s v) w).top - 0) = w
    rw [h2]
    show updW (psh s v).mem ((psh s v).top + 1) w (s.top + 2) = w
    rw [h1, updW_same]
  have o1 : opnd (psh (psh s v) w) 1 = v := by
    show (psh (psh s v) w).mem ((psh (psh s v) w).top - 1) = v
    rw [h2]
    show updW (updW s.mem (s.top + 1) v) ((psh s v).top + 1) w (s.top + 1) = v
    rw [h1, updW_other _ _ (by omega), updW_same]
  have hr : Room (psh (psh s v) w) 3 := by
    refine ⟨?_, ?_⟩
    · show 3 ≤ (psh (psh s v) w).top + 1; omega
    · show (psh (psh s v) w).top < s.words; rw [h2]; exact hf.1
  have h16 : hasArg16 o.toByte = true := by cases ho <;> rfl
  constructor
  · intro hR k' hk'
    refine one_step (.taken hat rfl (.signed ho hr) ?_ (by rw [jump_arg h16]; exact hk'))
    rw [o0, o1]; exact hR
  · intro hR
    refine one_step (.fall hat rfl (.signed ho hr) ?_)
    rw [o0, o1]; exact hR

theorem const_is {c : Const} {v : Val} {ty : Ty} (hf : c.fits ty) (ht : v.ty = ty) (hr : v.Ranged) :
    c.is v ↔ v.word.toInt = (BitVec.ofInt 16 (c.n : Int)).toInt := by
  rw [BitVec.toInt_inj]
  subst ht
  cases v with
  | num t i =>
    cases c with
    | int n =>
      have hr : wrap t i = i := hr
      have hf : n ≤ if t.signed then 32767 else 65535 := hf
      have hn : wrap t n = n := by
        unfold wrap
        split
        · next h => rw [if_pos h] at hf; exact Int.bmod_eq_of_le (by omega) (by omega)
        · next h => rw [if_neg h] at hf; omega
      constructor
      · intro h
        have h : i = n := h
        rw [h]; rfl
      · intro h
        show i = n
        have h : BitVec.ofInt 16 i = BitVec.ofInt 16 (n : Int) := h
        rw [← hr, ← hn]
        have hi := congrArg BitVec.toInt h
        have hu := congrArg BitVec.toNat h
        rw [BitVec.toInt_ofInt, BitVec.toInt_ofInt] at hi
        rw [BitVec.toNat_ofInt, BitVec.toNat_ofInt] at hu
        unfold wrap
        split
        · exact hi
        · omega
    | _ => cases hf
  | bool d =>
    cases c with
    | bool c =>
      have hf : c = false := hf
      subst hf
      cases d
      · exact ⟨fun _ => by decide, fun _ => rfl⟩
      · exact ⟨(fun h => by cases h), fun h => absurd h (by decide)⟩
    | _ => cases hf
  | char d =>
    cases c with
    | char c =>
      have e : (Val.char d).word = BitVec.ofInt 16 (d.toNat : Int) := by simp [Val.word]
      rw [e]
      constructor
      · intro h
        have h : c = d := h
        rw [h]; rfl
      · intro h
        show c = d
        have h : BitVec.ofInt 16 (d.toNat : Int) = BitVec.ofInt 16 (c.toNat : Int) := h
        have hu := congrArg BitVec.toNat h
        rw [BitVec.toNat_ofInt, BitVec.toNat_ofInt] at hu
        apply BitVec.eq_of_toNat_eq
        have := c.isLt
        have := d.isLt
        omega
    | _ => cases hf

/-- The comparisons with the constants of a case. -/
theorem consts_steps {ty : Ty} {v : Val} (ht : v.ty = ty) (hr : v.Ranged) {st nx : Nat}
    (ks : List Const) : ∀ (c : Const) (k : Nat) (s : VM), (∀ q ∈ c :: ks, q.fits ty) →
    s.mem s.top = v.word → Free s 2 → At p k (codeK st nx c ks) →
    LabelAt p (BitVec.ofNat 16 st) (k + (codeK st nx c ks).length) →
    ∃ t, Quiet s t ∧
      ((∃ q ∈ c :: ks, q.is v) →
        PSteps lib addr p (k, s) (k + (codeK st nx c ks).length, t)) ∧
      ((¬ ∃ q ∈ c :: ks, q.is v) → ∀ k', LabelAt p (BitVec.ofNat 16 nx) k' →
        PSteps lib addr p (k, s) (k', t)) := by
  induction ks with
  | nil =>
    intro c k s hf hv hfr hat hst
    have h1 : (psh s v.word).top = s.top + 1 := psh_top (hfr.mono (by omega))
    have hf' : Free (psh s v.word) 1 :=
      ⟨by rw [h1]; have := hfr.1; show s.top + 1 + 1 < s.words; omega, hfr.2⟩
    have hrun : Runs lib ([ins .dup 0 0] ++ [ins .push 0 (c.n : Int)]) s
        (psh (psh s v.word) (BitVec.ofInt 16 c.n)) := by
      have := dup_runs (lib := lib) (s := s) (hfr.mono (by omega))
      rw [hv] at this
      exact this.append (push_runs hf' _)
    have hat' : At p k ([ins .dup 0 0, ins .push 0 (c.n : Int)] ++ [ins .jneq 0 (nx : Int)]) := hat
    have hs := hrun.steps (addr := addr) hat'.left
    obtain ⟨j1, j2⟩ := cmp_steps (lib := lib) (addr := addr) hfr v.word (BitVec.ofInt 16 c.n)
      .jneq hat'.right.head
    have hci := const_is (hf c (by simp)) ht hr
    refine ⟨_, two_quiet hfr v.word (BitVec.ofInt 16 (c.n : Int)), ?_, ?_⟩
    · rintro ⟨q, hq, his⟩
      simp only [List.mem_singleton] at hq
      subst hq
      exact hs.append (j2 (fun h => h (hci.1 his)))
    · intro hno k' hk'
      refine hs.append (j1 ?_ k' hk')
      intro h
      exact hno ⟨c, by simp, hci.2 h⟩
  | cons c' ks ih =>
    intro c k s hf hv hfr hat hst
    have h1 : (psh s v.word).top = s.top + 1 := psh_top (hfr.mono (by omega))
    have hf' : Free (psh s v.word) 1 :=
      ⟨by rw [h1]; have := hfr.1; show s.top + 1 + 1 < s.words; omega, hfr.2⟩
    have hrun : Runs lib ([ins .dup 0 0] ++ [ins .push 0 (c.n : Int)]) s
        (psh (psh s v.word) (BitVec.ofInt 16 c.n)) := by
      have := dup_runs (lib := lib) (s := s) (hfr.mono (by omega))
      rw [hv] at this
      exact this.append (push_runs hf' _)
    have hat' : At p k ([ins .dup 0 0, ins .push 0 (c.n : Int)] ++
      ins .jequ 0 (st : Int) :: codeK st nx c' ks) := hat
    have hs := hrun.steps (addr := addr) hat'.left
    obtain ⟨j1, j2⟩ := cmp_steps (lib := lib) (addr := addr) hfr v.word (BitVec.ofInt 16 c.n)
      .jequ hat'.right.head
    have hci := const_is (hf c (by simp)) ht hr
    have hlen : k + (codeK st nx c (c' :: ks)).length = k + 3 + (codeK st nx c' ks).length := by
      simp [codeK]; omega
    rw [hlen] at hst ⊢
    have hq := two_quiet hfr v.word (BitVec.ofInt 16 (c.n : Int))
    obtain ⟨t, t1, t2, t3⟩ := ih c' (k + 3) (popN (psh (psh s v.word) (BitVec.ofInt 16 c.n)) 2)
      (fun q hq => hf q (List.mem_cons_of_mem _ hq)) (by rw [hq.top, hq.mem _ (Nat.le_refl _)]; exact hv)
      (hq.free hfr) hat'.right.tail hst
    by_cases hc : c.is v
    · refine ⟨_, hq, ?_, ?_⟩
      · intro _
        exact hs.append (j1 (hci.1 hc) _ hst)
      · intro h; exact absurd ⟨c, by simp, hc⟩ h
    · refine ⟨t, hq.trans t1, ?_, ?_⟩
      · rintro ⟨q, hq, his⟩
        refine (hs.append (j2 (fun h => hc (hci.2 h)))).append (t2 ⟨q, ?_, his⟩)
        rcases List.mem_cons.1 hq with rfl | h
        · exact absurd his hc
        · exact h
      · intro h k' hk'
        refine (hs.append (j2 (fun h => hc (hci.2 h)))).append (t3 ?_ k' hk')
        rintro ⟨q, hq, his⟩
        exact h ⟨q, List.mem_cons_of_mem _ hq, his⟩

end

/-! ### Facts about the meaning -/

theorem eval_set {l : Lvl} (e : E l) {x : Variable} : ∀ (σ : Store) (v : Val) (y : Expect),
    x ∉ e.vars → e.eval (σ.set x v) y = e.eval σ y := by
  induction e with
  | int | bool | char => intros; rfl
  | var z =>
    intro σ v y h
    simp only [E.vars, List.mem_singleton] at h
    simp only [E.eval, Store.set]
    rw [if_neg (fun h' => h h'.symm)]
  | not b f ih => intro σ v y h; simp only [E.eval]; rw [ih σ v y h]
  | paren e ih => intro σ v y h; simp only [E.eval]; rw [ih σ v _ h]
  | call f e ih => intro σ v y h; simp only [E.eval]; rw [ih σ v _ h]
  | index a e ih =>
    intro σ v y h
    simp only [E.vars, List.mem_append, not_or] at h
    simp only [E.eval]
    rw [ih σ v _ h.2]
    cases e.eval σ (.a (.num .integer)) with
    | none => rfl
    | some w =>
      simp only [Option.bind_eq_bind, Option.bind_some]
      cases hp : a.pick w with
      | none => rfl
      | some k =>
        simp only [Option.bind_some, Store.set]
        obtain ⟨t, rfl, h1, h2⟩ := pick_some hp
        rw [if_neg (fun h' => h.1 (by rw [← h']; exact Arr.elem_mem h1 h2))]
  | factor f ih => intro σ v y h; simp only [E.eval]; rw [ih σ v _ h]
  | mul t o f ih ih' =>
    intro σ v y h
    simp only [E.vars, List.mem_append, not_or] at h
    simp only [E.eval]; rw [ih σ v _ h.1, ih' σ v _ h.2]
  | term s t ih =>
    intro σ v y h
    rcases s with _ | s
    · simp only [E.eval]; rw [ih σ v _ h]
    · cases s <;> simp only [E.eval] <;> rw [ih σ v _ h]
  | add t o f ih ih' =>
    intro σ v y h
    simp only [E.vars, List.mem_append, not_or] at h
    simp only [E.eval]; rw [ih σ v _ h.1]
    simp only [ih' σ v _ h.2]
  | simple f ih => intro σ v y h; simp only [E.eval]; rw [ih σ v _ h]
  | rel t o f ih ih' =>
    intro σ v y h
    simp only [E.vars, List.mem_append, not_or] at h
    simp only [E.eval]; rw [ih σ v _ h.1, ih' σ v _ h.2]

/-! ### The simulation -/

section
variable (lib : Lib) (addr : Nat → Word) (p : List OpType) (g : Cfg) (Γ : Env)
  (ro : List Byte) (b : Nat) (wr : Bool) (cn : Nat)

/-- The machine is in the state; without standard files (`wr = false`) nothing can be written or read. -/
structure Good (s : VM) (σ : State) : Prop where
  has : Γ.Has lib ro s b σ
  quiet : wr = false → σ.out = none ∧ σ.inp = none

/-- From `c` the program reaches the position `dest`, with the stack pointer changed by `d` and the
variables as in `τ`. -/
def Goes (c : Nat × VM) (dest : Nat) (d : Word) (τ : State) : Prop :=
  ∃ t, PSteps lib addr p c (dest, t) ∧ Γ.Keeps wr c.2 t ∧ t.sp = c.2.sp + d ∧ Good lib Γ ro b wr t τ

/-- Where a statement that ends at position `ke` goes. -/
def Out (x : Ctx) (c : Nat × VM) (ke : Nat) : Outcome → State → Prop
  | .normal, τ => Goes lib addr p Γ ro b wr c ke 0#16 τ
  | .break_, τ => ∀ kb, LabelAt p (BitVec.ofNat 16 x.brk) kb →
      Goes lib addr p Γ ro b wr c kb (BitVec.ofInt 16 x.adj) τ
  | .continue_, τ => ∀ kb, LabelAt p (BitVec.ofNat 16 x.cont) kb →
      Goes lib addr p Γ ro b wr c kb (BitVec.ofInt 16 x.adj) τ

/-- The loop of a FOR, from its label on. -/
def loopCode (x : Variable) (down : Bool) (s : S .stmt) (m l : Nat) (r : List Byte) : List OpType :=
  labI (l + 1) :: ins .dup 0 0 :: ref g.level .lds x ::
      ins (if down then .jgt else .jlt) 0 ((l + 2 : Nat) : Int) ::
      (codeS g s m (l + 3) ⟨l + 3, l + 2, 0, 0, 0, r⟩ ++
      [labI (l + 3), ref g.level .lds x, ins (if down then .dec else .inc) 0 0, ref g.level .sts x,
        ins .jmp 0 ((l + 1 : Nat) : Int), labI (l + 2), ins .inds 0 (-2)])

/-- The counter and the limit are signed 16-bit integers, the limit is not the last one. -/
def Counts (down : Bool) (i hi : Int) : Prop :=
  -32768 ≤ i ∧ i ≤ 32767 ∧ -32768 ≤ hi ∧ hi ≤ 32767 ∧ (if down then -32768 < hi else hi < 32767)

/-- The code does what is executed. -/
def Sim : Cmd → State → Outcome → State → Prop
  | .stmt st, σ, o, τ => ∀ (m l : Nat) (x : Ctx) (k : Nat) (s : VM) (bb cc : Bool),
      st.Ok Γ.vars Γ.procs bb cc → x.ro ++ st.ro g.pad <+: ro → At p k (codeS g st m l x) → Γ.In s b → Good lib Γ ro b wr s σ → s.sp.toNat % 2 = 0 → b ≤ s.top →
      Free s (st.need cn) → Out lib addr p Γ ro b wr x (k + 1, s) (k + (codeS g st m l x).length) o τ
  | .list ls, σ, o, τ => ∀ (m l : Nat) (x : Ctx) (k : Nat) (s : VM) (bb cc : Bool),
      ls.Ok Γ.vars Γ.procs bb cc → x.ro ++ ls.ro g.pad <+: ro → At p k (codeS g ls m l x) → Γ.In s b → Good lib Γ ro b wr s σ → s.sp.toNat % 2 = 0 → b ≤ s.top →
      Free s (ls.need cn) → Out lib addr p Γ ro b wr x (k, s) (k + (codeS g ls m l x).length) o τ
  | .cases v cs, σ, o, τ => ∀ (m l : Nat) (x : Ctx) (k : Nat) (s : VM) (bb cc : Bool) (ty : Ty),
      cs.Ok Γ.vars Γ.procs bb cc → x.ro ++ cs.ro g.pad <+: ro → cs.labels ty → v.ty = ty → v.Ranged →
      At p k (codeS g cs m l x) →
      Γ.In s b → Good lib Γ ro b wr s σ → s.sp.toNat % 2 = 0 → b < s.top → s.mem s.top = v.word →
      Free s (max 2 (cs.need cn)) → LabelAt p (BitVec.ofNat 16 x.fin) (k + (codeS g cs m l x).length) →
      Out lib addr p Γ ro b wr x (k, s) (k + (codeS g cs m l x).length) o τ
  | .loop y t down i hi st, σ, o, τ => ∀ (m l k : Nat) (r : List Byte) (s : VM), Γ.vars y → y.ty = .num t →
      (t = .integer ∨ t = .word) → st.Ok Γ.vars Γ.procs true true →
      r ++ st.ro g.pad <+: ro → At p k (loopCode g y down st m l r) → Γ.In s b → Good lib Γ ro b wr s σ → s.sp.toNat % 2 = 0 → b < s.top →
      s.mem s.top = BitVec.ofInt 16 hi → σ.store y = some (.num t (wrap t i)) → Counts down i hi →
      Free s (max 2 (st.need cn)) →
      o = .normal ∧
      Goes lib addr p Γ ro b wr (k, s) (k + (loopCode g y down st m l r).length) (BitVec.ofInt 16 (-2)) τ
/-- Calls of the procedures do what `P` says, and need `cn` words of the stack besides their
parameters. -/
def CallsDo (P : Effects) : Prop :=
  ∀ (q : Proc) (vs : List Val) (σ τ : State) (k : Nat) (s : VM), Γ.procs q →
    P q (vs.map Val.trim) σ τ → vs.map Val.ty = q.parms → (∀ v ∈ vs, v.Ranged) →
    p[k]? = some (ins .pcal (q.level + 1 : Nat) q.label) → Γ.In s b → Good lib Γ ro b wr s σ →
    s.sp.toNat % 2 = 0 →
    b + vs.length ≤ s.top →
    (∀ i v, vs[i]? = some v → s.mem (s.top - vs.length + 1 + i) = v.word) → Free s cn →
    ∃ t, PSteps lib addr p (k, s) (k + 1, t) ∧
      Γ.Keeps wr { s with sp := s.sp - BitVec.ofNat 16 (2 * vs.length) } t ∧ t.sp = s.sp ∧
      Good lib Γ ro b wr t τ

end

section
variable {lib : Lib} {addr : Nat → Word} {p : List OpType} {g : Cfg} {Γ : Env} {b : Nat}
  {ro : List Byte} {wr : Bool} {cn : Nat}

theorem pre_left {a c d : List Byte} (h : a ++ (c ++ d) <+: ro) : a ++ c <+: ro := by
  rw [← List.append_assoc] at h
  exact (List.prefix_append _ _).trans h

theorem pre_right {a c d : List Byte} (h : a ++ (c ++ d) <+: ro) : (a ++ c) ++ d <+: ro := by
  rw [List.append_assoc]; exact h

theorem Good.of_keeps {s t : VM} {σ : State} (hh : Good lib Γ ro b wr s σ) (hb : b ≤ s.top)
    (h : Γ.Keeps false s t) {S : Store} (hS : Γ.Holds t.mem S) :
    Good lib Γ ro b wr t { σ with store := S } :=
  ⟨h.has hh.has hb hS, hh.quiet⟩

theorem Good.setSp {t : VM} {σ : State} (hh : Good lib Γ ro b wr t σ) (x : Word) :
    Good lib Γ ro b wr { t with sp := x } σ := ⟨hh.has.setSp x, hh.quiet⟩

theorem Goes.pre {k k1 dest : Nat} {s s1 : VM} {d0 d d' : Word} {τ : State}
    (h : PSteps lib addr p (k, s) (k1, s1)) (hk : Γ.Keeps wr s s1) (ht : s.top ≤ s1.top)
    (hsp : s1.sp = s.sp + d0) (hg : Goes lib addr p Γ ro b wr (k1, s1) dest d τ) (hd : d0 + d = d') :
    Goes lib addr p Γ ro b wr (k, s) dest d' τ := by
  obtain ⟨t, h1, h2, h3, h4⟩ := hg
  refine ⟨t, h.append h1, hk.trans h2 ht, ?_, h4⟩
  show t.sp = s.sp + d'
  rw [h3, ← hd, ← BitVec.add_assoc, ← hsp]

/-- Something that leaves the stack pointer alone comes first. -/
theorem Goes.pre0 {k k1 dest : Nat} {s s1 : VM} {d : Word} {τ : State}
    (h : PSteps lib addr p (k, s) (k1, s1)) (hk : Γ.Keeps wr s s1)
    (hsp : s1.sp = s.sp) (hg : Goes lib addr p Γ ro b wr (k1, s1) dest d τ) :
    Goes lib addr p Γ ro b wr (k, s) dest d τ :=
  hg.pre h hk (by rw [VM.top, VM.top, hsp]; exact Nat.le_refl _) (d0 := 0#16)
    (by rw [hsp]; simp) (by simp)

/-- Steps that change nothing come last. -/
theorem Goes.post {c : Nat × VM} {dest dest' : Nat} {d : Word} {τ : State}
    (hg : Goes lib addr p Γ ro b wr c dest d τ) (h : ∀ t, PSteps lib addr p (dest, t) (dest', t)) :
    Goes lib addr p Γ ro b wr c dest' d τ := by
  obtain ⟨t, h1, h2⟩ := hg
  exact ⟨t, h1.append (h t), h2⟩

theorem Goes.inds {c : Nat × VM} {dest : Nat} {d : Word} {τ : State} {a : Int}
    (hg : Goes lib addr p Γ ro b wr c dest d τ) (h : p[dest]? = some (ins .inds 0 a)) :
    Goes lib addr p Γ ro b wr c (dest + 1) (d + BitVec.ofInt 16 a) τ := by
  obtain ⟨t, h1, h2, h3, h4⟩ := hg
  have hat : At p dest [ins .inds 0 a] := by
    intro j i hj
    match j with
    | 0 => cases hj; exact h
    | j + 1 => simp at hj
  refine ⟨_, h1.append ((inds_runs t a).steps hat), h2.setSp _, ?_, h4.setSp _⟩
  · show t.sp + BitVec.ofInt 16 a = _
    rw [h3, BitVec.add_assoc]

theorem Out.pre {k k1 ke : Nat} {s s1 : VM} {x : Ctx} {o : Outcome} {τ : State}
    (h : PSteps lib addr p (k, s) (k1, s1)) (hk : Γ.Keeps wr s s1) (hsp : s1.sp = s.sp)
    (hg : Out lib addr p Γ ro b wr x (k1, s1) ke o τ) : Out lib addr p Γ ro b wr x (k, s) ke o τ := by
  cases o with
  | normal => exact Goes.pre0 h hk hsp hg
  | break_ => exact fun kb hb => Goes.pre0 h hk hsp (hg kb hb)
  | continue_ => exact fun kb hb => Goes.pre0 h hk hsp (hg kb hb)

theorem Out.post {c : Nat × VM} {ke ke' : Nat} {x : Ctx} {o : Outcome} {τ : State}
    (hg : Out lib addr p Γ ro b wr x c ke o τ) (h : ∀ t, PSteps lib addr p (ke, t) (ke', t)) :
    Out lib addr p Γ ro b wr x c ke' o τ := by
  cases o with
  | normal => exact Goes.post hg h
  | break_ => exact hg
  | continue_ => exact hg

theorem Out.skip {k ke : Nat} {s : VM} {x : Ctx} {o : Outcome} {τ : State}
    (h : PSteps lib addr p (k, s) (k + 1, s))
    (hg : Out lib addr p Γ ro b wr x (k + 1, s) ke o τ) : Out lib addr p Γ ro b wr x (k, s) ke o τ :=
  Out.pre h (Env.Keeps.refl _ _ _) rfl hg

theorem Out.ctx {c : Nat × VM} {ke : Nat} {x x' : Ctx} {o : Outcome} {τ : State}
    (hg : Out lib addr p Γ ro b wr x c ke o τ) (h1 : x'.cont = x.cont) (h2 : x'.brk = x.brk)
    (h3 : x'.adj = x.adj) : Out lib addr p Γ ro b wr x' c ke o τ := by
  cases o with
  | normal => exact hg
  | break_ => unfold Out; rw [h2, h3]; exact hg
  | continue_ => unfold Out; rw [h1, h3]; exact hg

theorem Quiet.good {s t : VM} (h : Quiet s t) {σ : State} (hi : Γ.In s b) (hb : b ≤ s.top)
    (hh : Good lib Γ ro b wr s σ) : Good lib Γ ro b wr t σ :=
  hh.of_keeps hb (h.keeps Γ false) ((h.same hb).holds hi hh.has.holds)
theorem Quiet.in_ {s t : VM} (h : Quiet s t) (hi : Γ.In s b) (hb : b ≤ s.top) : Γ.In t b :=
  (h.same hb).in_ hi

theorem Quiet.even {s t : VM} (h : Quiet s t) (he : s.sp.toNat % 2 = 0) : t.sp.toNat % 2 = 0 := by
  rw [h.sp]; exact he

theorem even_add {x : Word} (n : Nat) (h : x.toNat % 2 = 0) :
    (x + BitVec.ofNat 16 (2 * n)).toNat % 2 = 0 := by
  rw [BitVec.toNat_add, BitVec.toNat_ofNat]; omega

theorem free_max {s : VM} {m n : Nat} (h : Free s (max m n)) : Free s m ∧ Free s n :=
  ⟨h.mono (by omega), h.mono (by omega)⟩

/-- The first instruction of a statement is its line. -/
theorem codeS_line (g : Cfg) (st : S .stmt) (m l : Nat) (x : Ctx) :
    ∃ r, codeS g st m l x = lineI g m :: r := by
  cases st <;> exact ⟨_, rfl⟩

theorem sim_line {st : S .stmt} {m l k : Nat} {x : Ctx} (h : At p k (codeS g st m l x)) (s : VM) :
    PSteps lib addr p (k, s) (k + 1, s) := by
  obtain ⟨r, hr⟩ := codeS_line g st m l x
  rw [hr] at h
  exact line_step h.head s

theorem sim_assign (hΓ : Γ.Ok) (hg : g.level = Γ.level) {x : Variable} {e : E .expr} {σ : State}
    {v : Val} (h : e.eval σ.store (.a x.ty) = some v) :
    Sim lib addr p g Γ ro b wr cn (.stmt (.assign x e)) σ .normal (σ.set x v.trim) := by
  intro m l c k s bb cc hok hro hat hi hh he hb hf
  simp only [codeS, hg] at hat ⊢
  obtain ⟨_, _, t, h1, h2, h3, h4⟩ := assign_steps (lib := lib) (addr := addr) hΓ hok.1 hok.2 h hi hh.has.holds hb
    hf rfl hat.tail
  refine ⟨t, ?_, h2.quiet' _, by rw [h3]; simp, hh.of_keeps hb h2 h4⟩
  have e1 : k + (lineI g m :: (code Γ.level (.a x.ty) e ++ [ref Γ.level (stO x.ty) x])).length =
      k + 1 + (code Γ.level (.a x.ty) e).length + 1 := by simp; omega
  rw [e1]
  exact h1

theorem sim_assignAt (hΓ : Γ.Ok) (hg : g.level = Γ.level) {a : Arr} {i e : E .expr} {σ : State}
    {w v : Val} {j : Nat} (h1 : i.eval σ.store (.a (.num .integer)) = some w) (h2 : a.pick w = some j)
    (h : e.eval σ.store (.a a.ty) = some v) :
    Sim lib addr p g Γ ro b wr cn (.stmt (.assignAt a i e)) σ .normal (σ.set (a.elem j) v.trim) := by
  intro m l c k s bb cc hok hro hat hi hh he hb hf
  simp only [codeS, hg] at hat ⊢
  obtain ⟨_, _, t, h1, h2, h3, h4⟩ := assignAt_steps (lib := lib) (addr := addr) hΓ hok.1 hok.2.1
    hok.2.2.1 hok.2.2.2 h1 h2 h hi hh.has.holds hb hf hat.tail
  refine ⟨t, ?_, h2.quiet' _, by rw [h3]; simp, hh.of_keeps hb h2 h4⟩
  have e1 : k + (lineI g m :: (code Γ.level (.a (.num .integer)) i ++ idxI a ++ code Γ.level (.a a.ty) e ++
        [ref Γ.level (stxO a.ty) a.base])).length =
      k + 1 + (code Γ.level (.a (.num .integer)) i ++ idxI a ++ code Γ.level (.a a.ty) e).length + 1 := by
    simp; omega
  rw [e1]
  exact h1

theorem sim_thenTrue (hΓ : Γ.Ok) (hg : g.level = Γ.level) {e : E .expr} {st : S .stmt}
    {σ τ : State} {o : Outcome} (h : e.eval σ.store (.a .bool) = some (.bool true))
    (ih : Sim lib addr p g Γ ro b wr cn (.stmt st) σ o τ) :
    Sim lib addr p g Γ ro b wr cn (.stmt (.ifThen e st)) σ o τ := by
  intro m l c k s bb cc hok hro hat hi hh he hb hf
  obtain ⟨ho1, ho2⟩ := hok
  obtain ⟨hf1, hf2⟩ := free_max hf
  simp only [codeS, hg] at hat ⊢
  obtain ⟨t, h1, h2, _⟩ := cond_steps (lib := lib) (addr := addr) hΓ ho1 h hi hh.has.holds hb hf1 hat.tail
  have hat2 := hat.tail.right.tail
  have := ih _ _ _ _ t bb cc ho2 hro hat2.left (h1.in_ hi hb) (h1.good hi hb hh) (h1.even he)
    (by rw [h1.top]; exact hb) (h1.free hf2)
  have h3 := this.skip (sim_line hat2.left t)
  have h4 := h3.post (fun u => label_step hat2.right.head u)
  have h5 := h4.pre (h2 rfl) (h1.keeps Γ wr) h1.sp
  refine cast ?_ h5
  congr 1
  simp; omega

theorem Goes.zero {c : Nat × VM} {dest : Nat} {τ : State}
    (hg : Goes lib addr p Γ ro b wr c dest (BitVec.ofInt 16 0) τ) : Goes lib addr p Γ ro b wr c dest 0#16 τ := hg

theorem Out.here {k ke : Nat} {s : VM} {x : Ctx} {τ : State} (h : PSteps lib addr p (k, s) (ke, s))
    (hh : Good lib Γ ro b wr s τ) : Out lib addr p Γ ro b wr x (k, s) ke .normal τ :=
  ⟨s, h, Env.Keeps.refl _ _ _, by simp, hh⟩

/-- After the first part, execution goes on from the place reached. -/
theorem Goes.next {c : Nat × VM} {k1 ke : Nat} {x : Ctx} {o : Outcome} {τ υ : State}
    (hg : Goes lib addr p Γ ro b wr c k1 0#16 τ)
    (h : ∀ t, Γ.Keeps wr c.2 t → t.sp = c.2.sp → Good lib Γ ro b wr t τ → Out lib addr p Γ ro b wr x (k1, t) ke o υ) :
    Out lib addr p Γ ro b wr x c ke o υ := by
  obtain ⟨t, h1, h2, h3, h4⟩ := hg
  have h3 : t.sp = c.2.sp := by rw [h3]; simp
  exact (h t h2 h3 h4).pre h1 h2 h3

theorem keeps_top {s t : VM} (h : t.sp = s.sp) : t.top = s.top := by rw [VM.top, h]; rfl

theorem Env.Keeps.free {s t : VM} {n : Nat} (h : Γ.Keeps wr s t) (hsp : t.sp = s.sp) (hf : Free s n) :
    Free t n := by
  unfold Free; rw [keeps_top hsp, h.words]; exact hf

theorem sim_thenFalse (hΓ : Γ.Ok) (hg : g.level = Γ.level) (hu : Uniq p) {e : E .expr} {st : S .stmt}
    {σ : State} (h : e.eval σ.store (.a .bool) = some (.bool false)) :
    Sim lib addr p g Γ ro b wr cn (.stmt (.ifThen e st)) σ .normal σ := by
  intro m l c k s bb cc hok hro hat hi hh he hb hf
  obtain ⟨ho1, ho2⟩ := hok
  obtain ⟨hf1, hf2⟩ := free_max hf
  simp only [codeS, hg] at hat ⊢
  obtain ⟨t, h1, _, h2⟩ := cond_steps (lib := lib) (addr := addr) hΓ ho1 h hi hh.has.holds hb hf1 hat.tail
  have hat2 := hat.tail.right.tail
  have h3 : Out lib addr p Γ ro b wr c (_, t) _ .normal σ :=
    Out.here (label_step hat2.right.head t) (h1.good hi hb hh)
  have h5 := h3.pre (h2 rfl _ (label_at hu hat2.right.head)) (h1.keeps Γ wr) h1.sp
  refine cast ?_ h5
  congr 1
  simp; omega

theorem sim_elseTrue (hΓ : Γ.Ok) (hg : g.level = Γ.level) (hu : Uniq p) {e : E .expr}
    {st su : S .stmt} {σ τ : State} {o : Outcome} (h : e.eval σ.store (.a .bool) = some (.bool true))
    (ih : Sim lib addr p g Γ ro b wr cn (.stmt st) σ o τ) :
    Sim lib addr p g Γ ro b wr cn (.stmt (.ifElse e st su)) σ o τ := by
  intro m l c k s bb cc hok hro hat hi hh he hb hf
  obtain ⟨ho1, ho2, ho3, _⟩ := hok
  obtain ⟨hf1, hf2⟩ := free_max hf
  obtain ⟨hf2, hf3⟩ := free_max hf2
  simp only [codeS, hg] at hat ⊢
  obtain ⟨t, h1, h2, _⟩ := cond_steps (lib := lib) (addr := addr) hΓ ho1 h hi hh.has.holds hb hf1 hat.tail
  have hat2 := hat.tail.right.tail
  have hat3 := hat2.right.tail.tail.right
  have := ih _ _ _ _ t bb cc ho2 (pre_left hro) hat2.left (h1.in_ hi hb) (h1.good hi hb hh) (h1.even he)
    (by rw [h1.top]; exact hb) (h1.free hf2)
  have h3 := this.skip (sim_line hat2.left t)
  have h4 := h3.post (fun u => (jmp_step hat2.right.head (label_at hu hat3.head) u).append
    (label_step hat3.head u))
  have h5 := h4.pre (h2 rfl) (h1.keeps Γ wr) h1.sp
  refine cast ?_ h5
  congr 1
  simp; omega

theorem sim_elseFalse (hΓ : Γ.Ok) (hg : g.level = Γ.level) (hu : Uniq p) {e : E .expr}
    {st su : S .stmt} {σ τ : State} {o : Outcome} (h : e.eval σ.store (.a .bool) = some (.bool false))
    (ih : Sim lib addr p g Γ ro b wr cn (.stmt su) σ o τ) :
    Sim lib addr p g Γ ro b wr cn (.stmt (.ifElse e st su)) σ o τ := by
  intro m l c k s bb cc hok hro hat hi hh he hb hf
  obtain ⟨ho1, ho2, ho3, _⟩ := hok
  obtain ⟨hf1, hf2⟩ := free_max hf
  obtain ⟨hf2, hf3⟩ := free_max hf2
  simp only [codeS, hg] at hat ⊢
  obtain ⟨t, h1, _, h2⟩ := cond_steps (lib := lib) (addr := addr) hΓ ho1 h hi hh.has.holds hb hf1 hat.tail
  have hat2 := hat.tail.right.tail
  have hat4 := hat2.right.tail
  have := ih _ _ _ _ t bb cc ho3 (pre_right hro) hat4.tail.left (h1.in_ hi hb) (h1.good hi hb hh) (h1.even he)
    (by rw [h1.top]; exact hb) (h1.free hf3)
  have h3 := (this.skip (sim_line hat4.tail.left t)).ctx (x' := c) rfl rfl rfl
  have h4 := h3.post (fun u => label_step hat4.tail.right.head u)
  have h5 := h4.pre ((h2 rfl _ (label_at hu hat4.head)).append (label_step hat4.head t))
    (h1.keeps Γ wr) h1.sp
  refine cast ?_ h5
  congr 1
  simp; omega

theorem sim_whileEnd (hΓ : Γ.Ok) (hg : g.level = Γ.level) (hu : Uniq p) {e : E .expr}
    {st : S .stmt} {σ : State} (h : e.eval σ.store (.a .bool) = some (.bool false)) :
    Sim lib addr p g Γ ro b wr cn (.stmt (.while_ e st)) σ .normal σ := by
  intro m l c k s bb cc hok hro hat hi hh he hb hf
  obtain ⟨ho1, ho2⟩ := hok
  obtain ⟨hf1, hf2⟩ := free_max hf
  simp only [codeS, hg] at hat ⊢
  obtain ⟨t, h1, _, h2⟩ := cond_steps (lib := lib) (addr := addr) hΓ ho1 h hi hh.has.holds hb hf1 hat.tail.tail
  have hat2 := hat.tail.tail.right.tail.right.tail
  have h3 : Out lib addr p Γ ro b wr c (_, t) _ .normal σ :=
    Out.here (label_step hat2.head t) (h1.good hi hb hh)
  have h5 := h3.pre ((label_step hat.tail.head s).append (h2 rfl _ (label_at hu hat2.head)))
    (h1.keeps Γ wr) h1.sp
  refine cast ?_ h5
  congr 1
  simp; omega

theorem sim_whileBreak (hΓ : Γ.Ok) (hg : g.level = Γ.level) (hu : Uniq p) {e : E .expr}
    {st : S .stmt} {σ τ : State} (h : e.eval σ.store (.a .bool) = some (.bool true))
    (ih : Sim lib addr p g Γ ro b wr cn (.stmt st) σ .break_ τ) :
    Sim lib addr p g Γ ro b wr cn (.stmt (.while_ e st)) σ .normal τ := by
  intro m l c k s bb cc hok hro hat hi hh he hb hf
  obtain ⟨ho1, ho2⟩ := hok
  obtain ⟨hf1, hf2⟩ := free_max hf
  simp only [codeS, hg] at hat ⊢
  obtain ⟨t, h1, h2, _⟩ := cond_steps (lib := lib) (addr := addr) hΓ ho1 h hi hh.has.holds hb hf1 hat.tail.tail
  have hat2 := hat.tail.tail.right.tail
  have hat3 := hat2.right.tail
  have := ih _ _ ⟨l + 1, l + 2, 0, 0, 0, c.ro⟩ _ t true true ho2 hro hat2.left (h1.in_ hi hb) (h1.good hi hb hh) (h1.even he)
    (by rw [h1.top]; exact hb) (h1.free hf2)
  have h3 := this.skip (sim_line hat2.left t) _ (label_at hu hat3.head)
  have h4 : Out lib addr p Γ ro b wr c (_, t) _ .normal τ :=
    (Goes.zero h3).post (fun u => label_step hat3.head u)
  have h5 := h4.pre ((label_step hat.tail.head s).append (h2 rfl)) (h1.keeps Γ wr) h1.sp
  refine cast ?_ h5
  congr 1
  simp; omega

theorem sim_whileNext (hΓ : Γ.Ok) (hg : g.level = Γ.level) (hu : Uniq p) {e : E .expr}
    {st : S .stmt} {σ τ υ : State} {o o' : Outcome} (h : e.eval σ.store (.a .bool) = some (.bool true))
    (ih : Sim lib addr p g Γ ro b wr cn (.stmt st) σ o τ) (ho : o ≠ .break_)
    (ih' : Sim lib addr p g Γ ro b wr cn (.stmt (.while_ e st)) τ o' υ) :
    Sim lib addr p g Γ ro b wr cn (.stmt (.while_ e st)) σ o' υ := by
  intro m l c k s bb cc hok hro hat0 hi hh he hb hf
  have hok0 := hok
  obtain ⟨ho1, ho2⟩ := hok
  obtain ⟨hf1, hf2⟩ := free_max hf
  have hat := hat0
  simp only [codeS, hg] at hat
  obtain ⟨t, h1, h2, _⟩ := cond_steps (lib := lib) (addr := addr) hΓ ho1 h hi hh.has.holds hb hf1 hat.tail.tail
  have hat2 := hat.tail.tail.right.tail
  have := ih _ _ ⟨l + 1, l + 2, 0, 0, 0, c.ro⟩ _ t true true ho2 hro hat2.left (h1.in_ hi hb) (h1.good hi hb hh) (h1.even he)
    (by rw [h1.top]; exact hb) (h1.free hf2)
  have h3 := this.skip (sim_line hat2.left t)
  have hlab := label_at hu hat.tail.head
  have h4 : Goes lib addr p Γ ro b wr (k + 1 + 1 + (code Γ.level (.a .bool) e).length + 1, t) (k + 1) 0#16 τ := by
    cases o with
    | normal => exact Goes.post h3 (fun u => jmp_step hat2.right.head hlab u)
    | break_ => exact absurd rfl ho
    | continue_ => exact h3 _ hlab
  refine Goes.next (h4.pre0 ((label_step hat.tail.head s).append (h2 rfl)) (h1.keeps Γ wr) h1.sp) ?_
  intro u hk hsp hhu
  exact ih' m l c k u bb cc hok0 hro hat0 (hk.in_ hi hb) hhu (by rw [hsp]; exact he) (by rw [keeps_top hsp]; exact hb)
    (hk.free hsp hf)

theorem sim_repeatEnd (hΓ : Γ.Ok) (hg : g.level = Γ.level) {e : E .expr}
    {ls : S .list} {σ τ : State} (h : e.eval τ.store (.a .bool) = some (.bool true))
    (ih : Sim lib addr p g Γ ro b wr cn (.list ls) σ .normal τ) :
    Sim lib addr p g Γ ro b wr cn (.stmt (.repeat_ ls e)) σ .normal τ := by
  intro m l c k s bb cc hok hro hat hi hh he hb hf
  obtain ⟨ho1, ho2⟩ := hok
  obtain ⟨hf1, hf2⟩ := free_max hf
  simp only [codeS, hg] at hat ⊢
  have h1 := ih _ _ ⟨l + 1, l + 2, 0, 0, 0, c.ro⟩ _ s true false ho1 hro hat.tail.tail.left hi hh he hb hf1
  have hat2 := hat.tail.tail.right
  have h2 : Out lib addr p Γ ro b wr c _ _ .normal τ :=
    Goes.next (Goes.pre0 (label_step hat.tail.head s) (Env.Keeps.refl _ _ _) rfl h1)
      (ke := k + (lineI g m :: labI (l + 1) :: (codeS g ls (m - 1) (l + 2) ⟨l + 1, l + 2, 0, 0, 0, c.ro⟩ ++
      (code Γ.level (.a .bool) e ++ [ins .jequz 0 ((l + 1 : Nat) : Int), labI (l + 2)]))).length) ?_
  · exact h2
  · intro u hk hsp hhu
    obtain ⟨t, t1, t2, _⟩ := cond_steps (lib := lib) (addr := addr) hΓ ho2 h (hk.in_ hi hb) hhu.has.holds
      (by rw [keeps_top hsp]; exact hb) (hk.free hsp hf2) hat2
    have h3 : Out lib addr p Γ ro b wr c (_, t) _ .normal τ := Out.here (label_step hat2.right.tail.head t)
      (t1.good (hk.in_ hi hb) (by rw [keeps_top hsp]; exact hb) hhu)
    have h5 := h3.pre (t2 rfl) (t1.keeps Γ wr) t1.sp
    refine cast ?_ h5
    congr 1
    simp; omega

theorem sim_repeatBreak (hu : Uniq p) {e : E .expr}
    {ls : S .list} {σ τ : State}
    (ih : Sim lib addr p g Γ ro b wr cn (.list ls) σ .break_ τ) :
    Sim lib addr p g Γ ro b wr cn (.stmt (.repeat_ ls e)) σ .normal τ := by
  intro m l c k s bb cc hok hro hat hi hh he hb hf
  obtain ⟨ho1, ho2⟩ := hok
  obtain ⟨hf1, hf2⟩ := free_max hf
  simp only [codeS] at hat ⊢
  have h1 := ih _ _ ⟨l + 1, l + 2, 0, 0, 0, c.ro⟩ _ s true false ho1 hro hat.tail.tail.left hi hh he hb hf1
  have hat2 := hat.tail.tail.right.right.tail
  have h3 := h1 _ (label_at hu hat2.head)
  have h4 : Out lib addr p Γ ro b wr c (_, s) _ .normal τ :=
    (Goes.zero h3).post (fun u => label_step hat2.head u)
  have h5 := h4.pre (label_step hat.tail.head s) (Env.Keeps.refl _ _ _) rfl
  refine cast ?_ h5
  congr 1
  simp; omega

theorem sim_repeatNext (hΓ : Γ.Ok) (hg : g.level = Γ.level) (hu : Uniq p) {e : E .expr}
    {ls : S .list} {σ τ υ : State} {o' : Outcome} (h : e.eval τ.store (.a .bool) = some (.bool false))
    (ih : Sim lib addr p g Γ ro b wr cn (.list ls) σ .normal τ)
    (ih' : Sim lib addr p g Γ ro b wr cn (.stmt (.repeat_ ls e)) τ o' υ) :
    Sim lib addr p g Γ ro b wr cn (.stmt (.repeat_ ls e)) σ o' υ := by
  intro m l c k s bb cc hok hro hat0 hi hh he hb hf
  have hok0 := hok
  obtain ⟨ho1, ho2⟩ := hok
  obtain ⟨hf1, hf2⟩ := free_max hf
  have hat := hat0
  simp only [codeS, hg] at hat
  have h1 := ih _ _ ⟨l + 1, l + 2, 0, 0, 0, c.ro⟩ _ s true false ho1 hro hat.tail.tail.left hi hh he hb hf1
  have hat2 := hat.tail.tail.right
  refine Goes.next (Goes.pre0 (label_step hat.tail.head s) (Env.Keeps.refl _ _ _) rfl h1) ?_
  intro u hk hsp hhu
  have hiu := hk.in_ hi hb
  have hbu : b ≤ u.top := by rw [keeps_top hsp]; exact hb
  obtain ⟨t, t1, _, t2⟩ := cond_steps (lib := lib) (addr := addr) hΓ ho2 h hiu hhu.has.holds
    hbu (hk.free hsp hf2) hat2
  have := ih' m l c k t bb cc hok0 hro hat0 (t1.in_ hiu hbu) (t1.good hiu hbu hhu) (t1.even (by rw [hsp]; exact he))
    (by rw [t1.top]; exact hbu) (t1.free (hk.free hsp hf))
  exact this.pre (t2 rfl _ (label_at hu hat.tail.head)) (t1.keeps Γ wr) t1.sp

theorem sim_leave {k l : Nat} {s : VM} {a : Int} {σ : State} (hat : At p k (leave a l))
    (hh : Good lib Γ ro b wr s σ) {kb : Nat} (hl : LabelAt p (BitVec.ofNat 16 l) kb) :
    Goes lib addr p Γ ro b wr (k, s) kb (BitVec.ofInt 16 a) σ := by
  unfold leave at hat
  split at hat
  · next h =>
    subst h
    exact ⟨s, jmp_step hat.head hl s, Env.Keeps.refl _ _ _, by show s.sp = s.sp + 0#16; simp, hh⟩
  · have h0 : Goes lib addr p Γ ro b wr (k, s) k 0#16 σ :=
      ⟨s, .refl _, Env.Keeps.refl _ _ _, by simp, hh⟩
    have h1 := (h0.inds hat.head).post (fun u => jmp_step hat.tail.head hl u)
    rw [BitVec.zero_add] at h1
    exact h1

theorem sim_cons {st : S .stmt} {ls : S .list} {σ τ υ : State} {o : Outcome}
    (ih : Sim lib addr p g Γ ro b wr cn (.stmt st) σ .normal τ)
    (ih' : Sim lib addr p g Γ ro b wr cn (.list ls) τ o υ) :
    Sim lib addr p g Γ ro b wr cn (.list (.cons st ls)) σ o υ := by
  intro m l c k s bb cc hok hro hat hi hh he hb hf
  obtain ⟨hf1, hf2⟩ := free_max hf
  simp only [codeS] at hat ⊢
  have h1 := (ih _ _ _ _ s bb cc hok.1 (pre_left hro) hat.left hi hh he hb hf1).skip (sim_line hat.left s)
  refine Goes.next h1 ?_
  intro u hk hsp hhu
  have := ih' _ _ _ _ u bb cc hok.2 (pre_right hro) hat.right (hk.in_ hi hb) hhu (by rw [hsp]; exact he) (by rw [keeps_top hsp]; exact hb)
    (hk.free hsp hf2)
  refine cast ?_ (this.ctx (x' := c) rfl rfl rfl)
  congr 1
  simp; omega

theorem sim_case (hΓ : Γ.Ok) (hg : g.level = Γ.level) (hu : Uniq p) {e : E .expr}
    {cs : S .cases} {σ τ : State} {v : Val} {o : Outcome} (h : e.eval σ.store .ordinal = some v)
    (ih : Sim lib addr p g Γ ro b wr cn (.cases v cs) σ o τ) :
    Sim lib addr p g Γ ro b wr cn (.stmt (.case_ e cs)) σ o τ := by
  intro m l c k s bb cc hok hro hat hi hh he hb hf
  obtain ⟨ty, ho1, ho2, ho3⟩ := hok
  obtain ⟨hf1, hf2⟩ := free_max hf
  simp only [codeS, hg] at hat ⊢
  obtain ⟨t, h1, h2, h3, h4⟩ := runs lib hΓ e _ _ _ s ho1.2 h ho1.1 hi hh.has.holds hb hf1
  have hfr1 : Free s 1 := hf1.mono (toks_pos e)
  have hat2 := hat.tail.right
  have hsame := h2.same hb
  have htop := h2.top hfr1
  have hfin := label_at hu hat2.right.head
  have h5 := ih _ _ ⟨c.cont, c.brk, c.adj - 2, l + 1, l + 2, c.ro⟩ _ t bb cc ty ho3 hro ho2 h4 h3 hat2.left (hsame.in_ hi)
    (hh.of_keeps hb (h2.keeps Γ _) (hsame.holds hi hh.has.holds)) (by rw [h2.sp]; exact even_add 1 he)
    (by omega) (by rw [htop]; exact h2.value)
    (h2.free (hf2.mono (by omega))) hfin
  have pre : ∀ {dest : Nat} {d d' : Word}, Goes lib addr p Γ ro b wr (k + 1 + (code Γ.level .ordinal e).length, t) dest d τ →
      2#16 + d = d' → Goes lib addr p Γ ro b wr (k + 1, s) dest d' τ := by
    intro dest d d' hg' hd
    exact hg'.pre (h1.steps hat.tail.left) (h2.keeps Γ wr) (by omega) h2.sp hd
  cases o with
  | normal =>
    have h6 := (Goes.post h5 (fun u => label_step hat2.right.head u)).inds hat2.right.tail.head
    have h7 := pre h6 (d' := 0#16) (by decide)
    refine cast ?_ h7
    congr 1
    simp; omega
  | break_ =>
    intro kb hkb
    refine pre (h5 kb hkb) ?_
    rw [show (2#16 : Word) = BitVec.ofInt 16 2 from rfl, ← BitVec.ofInt_add]
    congr 1
    simp only; omega
  | continue_ =>
    intro kb hkb
    refine pre (h5 kb hkb) ?_
    rw [show (2#16 : Word) = BitVec.ofInt 16 2 from rfl, ← BitVec.ofInt_add]
    congr 1
    simp only; omega

theorem sim_lastYes (hu : Uniq p) {q : Const} {qs : List Const} {st : S .stmt} {semi : Bool}
    {v : Val} {σ τ : State} {o : Outcome} (h : ∃ c ∈ q :: qs, c.is v)
    (ih : Sim lib addr p g Γ ro b wr cn (.stmt st) σ o τ) :
    Sim lib addr p g Γ ro b wr cn (.cases v (.last q qs st semi)) σ o τ := by
  intro m l c k s bb cc ty hok hro hlab hty hr hat hi hh he hb hv hf hfin
  obtain ⟨hf1, hf2⟩ := free_max hf
  have hlen : k + (codeS g (.last q qs st semi) m l c).length =
      k + 1 + (codeK (l + 2) (l + 1) q qs).length + 1 +
      (codeS g st (m - ((constToks q qs).length + 1)) (l + 2) c).length + 2 := by
    simp [codeS]; omega
  simp only [codeS] at hat
  have hat2 := hat.tail.right
  obtain ⟨t, t1, t2, _⟩ := consts_steps (lib := lib) (addr := addr) hty hr qs q _ s hlab hv hf1
    hat.tail.left (label_at hu hat2.head)
  have hb' : b ≤ s.top := by omega
  have h1 := ih _ _ _ _ t bb cc hok hro hat2.tail.left (t1.in_ hi hb') (t1.good hi hb' hh) (t1.even he)
    (by rw [t1.top]; exact hb') (t1.free hf2)
  have h2 := h1.skip (sim_line hat2.tail.left t)
  have h3 := h2.post (fun u => jmp_step hat2.tail.right.head hfin u)
  exact h3.pre (((label_step hat.head s).append (t2 h)).append (label_step hat2.head t))
    (t1.keeps Γ wr) t1.sp

theorem sim_lastNo (hu : Uniq p) {q : Const} {qs : List Const} {st : S .stmt} {semi : Bool}
    {v : Val} {σ : State} (h : ¬ ∃ c ∈ q :: qs, c.is v) :
    Sim lib addr p g Γ ro b wr cn (.cases v (.last q qs st semi)) σ .normal σ := by
  intro m l c k s bb cc ty hok hro hlab hty hr hat hi hh he hb hv hf hfin
  obtain ⟨hf1, hf2⟩ := free_max hf
  have hlen : k + (codeS g (.last q qs st semi) m l c).length =
      k + 1 + (codeK (l + 2) (l + 1) q qs).length + 1 +
      (codeS g st (m - ((constToks q qs).length + 1)) (l + 2) c).length + 1 + 1 := by
    simp [codeS]; omega
  rw [hlen]
  simp only [codeS] at hat
  have hat2 := hat.tail.right
  obtain ⟨t, t1, _, t2⟩ := consts_steps (lib := lib) (addr := addr) hty hr qs q _ s hlab hv hf1
    hat.tail.left (label_at hu hat2.head)
  have hb' : b ≤ s.top := by omega
  have hat3 := hat2.tail.right.tail
  have h1 : Out lib addr p Γ ro b wr c (_, t) _ .normal σ :=
    Out.here (label_step hat3.head t) (t1.good hi hb' hh)
  exact h1.pre ((label_step hat.head s).append (t2 h _ (label_at hu hat3.head)))
    (t1.keeps Γ wr) t1.sp

/-- The code of cases starts with the label of the case. -/
theorem codeS_this (g : Cfg) (cs : S .cases) (m l : Nat) (x : Ctx) :
    ∃ r, codeS g cs m l x = labI x.this :: r := by
  cases cs <;> exact ⟨_, rfl⟩

theorem sim_moreYes (hu : Uniq p) {q : Const} {qs : List Const} {st : S .stmt} {cs : S .cases}
    {v : Val} {σ τ : State} {o : Outcome} (h : ∃ c ∈ q :: qs, c.is v)
    (ih : Sim lib addr p g Γ ro b wr cn (.stmt st) σ o τ) :
    Sim lib addr p g Γ ro b wr cn (.cases v (.more q qs st cs)) σ o τ := by
  intro m l c k s bb cc ty hok hro hlab hty hr hat hi hh he hb hv hf hfin
  have hf1 : Free s 2 := hf.mono (by omega)
  have hf2 : Free s (st.need cn) := hf.mono (by simp only [S.need]; omega)
  simp only [codeS] at hat
  have hat2 := hat.tail.right
  obtain ⟨t, t1, t2, _⟩ := consts_steps (lib := lib) (addr := addr) hty hr qs q _ s hlab.1 hv hf1
    hat.tail.left (label_at hu hat2.head)
  have hb' : b ≤ s.top := by omega
  have h1 := ih _ _ _ _ t bb cc hok.1 (pre_left hro) hat2.tail.left (t1.in_ hi hb') (t1.good hi hb' hh) (t1.even he)
    (by rw [t1.top]; exact hb') (t1.free hf2)
  have h2 := h1.skip (sim_line hat2.tail.left t)
  have h3 := h2.post (fun u => jmp_step hat2.tail.right.head hfin u)
  exact h3.pre (((label_step hat.head s).append (t2 h)).append (label_step hat2.head t))
    (t1.keeps Γ wr) t1.sp

theorem sim_moreNo (hu : Uniq p) {q : Const} {qs : List Const} {st : S .stmt} {cs : S .cases}
    {v : Val} {σ τ : State} {o : Outcome} (h : ¬ ∃ c ∈ q :: qs, c.is v)
    (ih : Sim lib addr p g Γ ro b wr cn (.cases v cs) σ o τ) :
    Sim lib addr p g Γ ro b wr cn (.cases v (.more q qs st cs)) σ o τ := by
  intro m l c k s bb cc ty hok hro hlab hty hr hat hi hh he hb hv hf hfin
  have hf1 : Free s 2 := hf.mono (by omega)
  have hf2 : Free s (max 2 (cs.need cn)) := hf.mono (by simp only [S.need]; omega)
  have hlen : k + (codeS g (.more q qs st cs) m l c).length =
      k + 1 + (codeK (l + 2) (l + 1) q qs).length + 1 +
      (codeS g st (m - ((constToks q qs).length + 1)) (l + 2) c).length + 1 +
      (codeS g cs (m - ((constToks q qs).length + st.toks.length + 2))
        (l + 2 + st.nlab) { c with this := l + 1, ro := c.ro ++ st.ro g.pad }).length := by
    simp [codeS]; omega
  rw [hlen] at hfin ⊢
  simp only [codeS] at hat
  have hat2 := hat.tail.right
  obtain ⟨t, t1, _, t2⟩ := consts_steps (lib := lib) (addr := addr) hty hr qs q _ s hlab.1 hv hf1
    hat.tail.left (label_at hu hat2.head)
  have hb' : b ≤ s.top := by omega
  have hat3 := hat2.tail.right.tail
  have h1 := ih _ _ _ _ t bb cc ty hok.2 (pre_right hro) hlab.2 hty hr hat3 (t1.in_ hi hb') (t1.good hi hb' hh) (t1.even he)
    (by rw [t1.top]; exact hb) (by rw [t1.top, t1.mem _ (Nat.le_refl _)]; exact hv) (t1.free hf2) hfin
  have hthis : p[k + 1 + (codeK (l + 2) (l + 1) q qs).length + 1 +
      (codeS g st (m - ((constToks q qs).length + 1)) (l + 2) c).length + 1]? =
      some (labI (l + 1)) := by
    obtain ⟨r, hr⟩ := codeS_this g cs (m - ((constToks q qs).length + st.toks.length + 2))
      (l + 2 + st.nlab) { c with this := l + 1, ro := c.ro ++ st.ro g.pad }
    rw [hr] at hat3
    exact hat3.head
  have h2 := Out.ctx (x' := c) h1 rfl rfl rfl
  exact h2.pre ((label_step hat.head s).append (t2 h _ (label_at hu hthis))) (t1.keeps Γ wr) t1.sp

/-! ### FOR -/

theorem loop_ld {t : IntTy} (ht : t = .integer ∨ t = .word) : ldO (.num t) = .lds := by
  rcases ht with rfl | rfl <;> rfl
theorem loop_st {t : IntTy} (ht : t = .integer ∨ t = .word) : stO (.num t) = .sts := by
  rcases ht with rfl | rfl <;> rfl
theorem loop_trim {t : IntTy} (ht : t = .integer ∨ t = .word) (i : Int) :
    (Val.num t i).trim = .num t i := by
  rcases ht with rfl | rfl <;> rfl

theorem toInt_16 {i : Int} (h1 : -32768 ≤ i) (h2 : i ≤ 32767) : (BitVec.ofInt 16 i).toInt = i := by
  rw [BitVec.toInt_ofInt]; exact Int.bmod_eq_of_le (by omega) (by omega)

theorem counts_next {down : Bool} {i hi : Int} (h : Counts down i hi) (hg : goesOn down i hi) :
    Counts down (after1 down i) hi := by
  unfold Counts goesOn after1 at *
  cases down <;> simp at * <;> omega

/-- The test at the start of the loop. -/
theorem loop_head (hΓ : Γ.Ok) (hg : g.level = Γ.level) {y : Variable} {t : IntTy} {down : Bool}
    {i hi : Int} {st : S .stmt} {σ : State} {m l k : Nat} {s : VM} (hy : Γ.vars y)
    (hty : y.ty = .num t) (ht : t = .integer ∨ t = .word) (hat : At p k (loopCode g y down st m l r))
    (hi' : Γ.In s b) (hh : Good lib Γ ro b wr s σ) (hb : b < s.top) (hv : s.mem s.top = BitVec.ofInt 16 hi)
    (hσ : σ.store y = some (.num t (wrap t i))) (hc : Counts down i hi) (hf : Free s 2) :
    ∃ u, Quiet s u ∧ (goesOn down i hi → PSteps lib addr p (k, s) (k + 4, u)) ∧
      (¬ goesOn down i hi → ∀ k', LabelAt p (BitVec.ofNat 16 (l + 2)) k' →
        PSteps lib addr p (k, s) (k', u)) := by
  simp only [loopCode, hg] at hat
  have hf1 : Free s 1 := hf.mono (by omega)
  have hp := psh_pushed (s := s) (n := 1) (by omega) (s.mem s.top)
  have hsame := hp.same (b := b) (by omega)
  have hf' : Free (psh s (s.mem s.top)) 1 := hp.free hf
  have hld := load_runs (lib := lib) hΓ (hsame.in_ hi') (hsame.holds hi' hh.has.holds) hf' hy hσ
  rw [hty, loop_ld ht] at hld
  have hw : (Val.num t (wrap t i)).word = BitVec.ofInt 16 i := ofInt_wrap t i
  rw [hw] at hld
  obtain ⟨c1, c2, c3, c4, c5⟩ := hc
  have s1 : PSteps lib addr p (k, s) (k + 1 + 1 + 1, psh (psh s (s.mem s.top)) (BitVec.ofInt 16 i)) := by
    refine (label_step hat.head s).append ?_
    have h1 := (dup_runs (lib := lib) hf1).steps (addr := addr) (p := p) (k := k + 1)
      (show At p (k + 1) [ins .dup 0 0] from
        (show At p (k + 1) ([ins .dup 0 0] ++ _) from hat.tail).left)
    have h2 := hld.steps (addr := addr) (p := p) (k := k + 1 + 1)
      (show At p (k + 1 + 1) [ref Γ.level .lds y] from
        (show At p (k + 1 + 1) ([ref Γ.level .lds y] ++ _) from hat.tail.tail).left)
    exact h1.append h2
  refine ⟨_, two_quiet hf (s.mem s.top) (BitVec.ofInt 16 i), ?_, ?_⟩
  · intro hgo
    refine s1.append ?_
    have := hat.tail.tail.tail.head
    unfold goesOn at hgo
    cases down
    · refine (cmp_steps (lib := lib) (addr := addr) hf _ _ .jlt this).2 ?_
      rw [hv, toInt_16 c1 c2, toInt_16 c3 c4]
      simp at hgo; omega
    · refine (cmp_steps (lib := lib) (addr := addr) hf _ _ .jgt this).2 ?_
      rw [hv, toInt_16 c1 c2, toInt_16 c3 c4]
      simp at hgo; omega
  · intro hgo k' hk'
    refine s1.append ?_
    have := hat.tail.tail.tail.head
    unfold goesOn at hgo
    cases down
    · refine (cmp_steps (lib := lib) (addr := addr) hf _ _ .jlt this).1 ?_ _ hk'
      rw [hv, toInt_16 c1 c2, toInt_16 c3 c4]
      simp at hgo; omega
    · refine (cmp_steps (lib := lib) (addr := addr) hf _ _ .jgt this).1 ?_ _ hk'
      rw [hv, toInt_16 c1 c2, toInt_16 c3 c4]
      simp at hgo; omega

/-- The counting at the end of the loop. -/
theorem loop_tail (hΓ : Γ.Ok) {y : Variable} {t : IntTy} {down : Bool}
    {i : Int} {τ : State} {l k : Nat} {s : VM} {rest : List OpType} (hy : Γ.vars y)
    (hty : y.ty = .num t) (ht : t = .integer ∨ t = .word)
    (hat : At p k (labI (l + 3) :: ref Γ.level .lds y :: ins (if down then .dec else .inc) 0 0 ::
      ref Γ.level .sts y :: rest))
    (hi' : Γ.In s b) (hh : Good lib Γ ro b wr s τ) (hb : b ≤ s.top)
    (hτ : τ.store y = some (.num t (wrap t i))) (hf : Free s 1) :
    Goes lib addr p Γ ro b wr (k, s) (k + 4) 0#16 (τ.set y (.num t (wrap t (after1 down i)))) := by
  have hld := load_runs (lib := lib) hΓ hi' hh.has.holds hf hy hτ
  rw [hty, loop_ld ht] at hld
  have hw : (Val.num t (wrap t i)).word = BitVec.ofInt 16 i := ofInt_wrap t i
  rw [hw] at hld
  have hp := psh_pushed (s := s) (n := 1) (by omega) (BitVec.ofInt 16 i)
  have htop := hp.top hf
  have hcount : Runs lib [ins (if down then .dec else .inc) 0 0] (psh s (BitVec.ofInt 16 i))
      (rep1 (psh s (BitVec.ofInt 16 i)) (BitVec.ofInt 16 (after1 down i))) := by
    have hv : (psh s (BitVec.ofInt 16 i)).mem (psh s (BitVec.ofInt 16 i)).top = BitVec.ofInt 16 i := by
      rw [htop]; exact hp.value
    have h2 : (psh s (BitVec.ofInt 16 i)).top < (psh s (BitVec.ofInt 16 i)).words := by
      rw [htop, hp.words]; exact hf.1
    cases down
    · have := un_runs (lib := lib) (o := .inc) (s := psh s (BitVec.ofInt 16 i)) rfl (by omega) h2 0 0
      rw [hv] at this
      have e : BitVec.ofInt 16 i + 1#16 = BitVec.ofInt 16 (after1 false i) := by
        rw [show (1#16 : Word) = BitVec.ofInt 16 1 from rfl, ← BitVec.ofInt_add]; rfl
      rw [← e]; exact this
    · have := un_runs (lib := lib) (o := .dec) (s := psh s (BitVec.ofInt 16 i)) rfl (by omega) h2 0 0
      rw [hv] at this
      have e : BitVec.ofInt 16 i - 1#16 = BitVec.ofInt 16 (after1 true i) := by
        rw [show BitVec.ofInt 16 i - 1#16 = BitVec.ofInt 16 i + BitVec.ofInt 16 (-1) by
          rw [show BitVec.ofInt 16 (-1) = -1#16 from rfl, BitVec.sub_eq_add_neg], ← BitVec.ofInt_add]
        rfl
      rw [← e]; exact this
  have hr := hp.rep1 (by omega) hf (BitVec.ofInt 16 (after1 down i))
  have hsame := hr.same hb
  have hrt := hr.top hf
  obtain ⟨mm, g1, g2, g3⟩ := store_runs (lib := lib) hΓ (hsame.in_ hi') (hsame.holds hi' hh.has.holds)
    (by rw [hrt, hr.words]; exact hf.1) hy
    (v := .num t (wrap t (after1 down i))) (wrap_wrap _ _) hty.symm
    (by rw [hrt]; exact hr.value.trans (ofInt_wrap _ _).symm)
  rw [loop_trim ht] at g2
  rw [hty, loop_st ht] at g1
  have h1 := hld.steps (addr := addr) (p := p) (k := k + 1)
      (show At p (k + 1) [ref Γ.level .lds y] from
        (show At p (k + 1) ([ref Γ.level .lds y] ++ _) from hat.tail).left)
  have h2 := hcount.steps (addr := addr) (p := p) (k := k + 1 + 1)
      (show At p (k + 1 + 1) [_] from
        (show At p (k + 1 + 1) ([ins (if down then .dec else .inc) 0 0] ++ _) from hat.tail.tail).left)
  have h3 := g1.steps (addr := addr) (p := p) (k := k + 1 + 1 + 1)
      (show At p (k + 1 + 1 + 1) [_] from
        (show At p (k + 1 + 1 + 1) ([ref Γ.level .sts y] ++ _) from hat.tail.tail.tail).left)
  have hk : Γ.Keeps false s ({ rep1 (psh s (BitVec.ofInt 16 i)) (BitVec.ofInt 16 (after1 down i)) with
      sp := (rep1 (psh s (BitVec.ofInt 16 i)) (BitVec.ofInt 16 (after1 down i))).sp - 2#16
      mem := mm }) := by
    refine keeps_of_regs
      (x := (rep1 (psh s (BitVec.ofInt 16 i)) (BitVec.ofInt 16 (after1 down i))).sp - 2#16) ?_ ?_ _
    · have := regs_set hr.regs ((rep1 (psh s (BitVec.ofInt 16 i)) (BitVec.ofInt 16 (after1 down i))).sp - 2#16) mm
      exact this
    · intro a ha hn
      show byte mm a = _
      rw [g3 a (hn y hy)]
      unfold byte
      rw [hr.kept _ (.inl ha)]
  refine ⟨_, (((label_step hat.head s).append h1).append h2).append h3, hk.quiet' _, ?_,
    hh.of_keeps hb hk g2⟩
  · show (rep1 (psh s (BitVec.ofInt 16 i)) (BitVec.ofInt 16 (after1 down i))).sp - 2#16 = s.sp + 0#16
    rw [hr.sp]; bv_omega

theorem sim_loopEnd (hΓ : Γ.Ok) (hg : g.level = Γ.level) (hu : Uniq p) {x : Variable} {t : IntTy}
    {down : Bool} {i hi : Int} {st : S .stmt} {σ : State} (h : ¬ goesOn down i hi) :
    Sim lib addr p g Γ ro b wr cn (.loop x t down i hi st) σ .normal σ := by
  intro m l k r s hy hty ht hok hro hat hi' hh he hb hv hσ hc hf
  refine ⟨rfl, ?_⟩
  obtain ⟨u, h1, _, h2⟩ := loop_head (lib := lib) (addr := addr) hΓ hg hy hty ht hat hi' hh hb hv hσ
    hc (hf.mono (by omega))
  simp only [loopCode] at hat ⊢
  have hat2 := hat.tail.tail.tail.tail.right.tail.tail.tail.tail.tail
  have h3 : Goes lib addr p Γ ro b wr (k, s) _ 0#16 σ :=
    ⟨u, h2 h _ (label_at hu hat2.head), h1.keeps Γ wr, by rw [h1.sp]; simp,
      h1.good hi' (by omega) hh⟩
  have h4 := (h3.post (fun u => label_step hat2.head u)).inds hat2.tail.head
  rw [BitVec.zero_add] at h4
  refine cast ?_ h4
  congr 1
  simp; omega

theorem sim_loopBreak (hΓ : Γ.Ok) (hg : g.level = Γ.level) (hu : Uniq p) {x : Variable} {t : IntTy}
    {down : Bool} {i hi : Int} {st : S .stmt} {σ τ : State} (h : goesOn down i hi)
    (ih : Sim lib addr p g Γ ro b wr cn (.stmt st) σ .break_ τ) :
    Sim lib addr p g Γ ro b wr cn (.loop x t down i hi st) σ .normal τ := by
  intro m l k r s hy hty ht hok hro hat hi' hh he hb hv hσ hc hf
  refine ⟨rfl, ?_⟩
  obtain ⟨u, h1, h2, _⟩ := loop_head (lib := lib) (addr := addr) hΓ hg hy hty ht hat hi' hh hb hv hσ
    hc (hf.mono (by omega))
  simp only [loopCode] at hat ⊢
  have hat2 := hat.tail.tail.tail.tail.right.tail.tail.tail.tail.tail
  have hat3 := hat.tail.tail.tail.tail.left
  have hb' : b ≤ s.top := by omega
  have h3 := ih _ _ _ _ u true true hok hro hat3 (h1.in_ hi' hb') (h1.good hi' hb' hh) (h1.even he)
    (by rw [h1.top]; exact hb') (h1.free (hf.mono (by omega)))
  have h4 := h3.skip (sim_line hat3 u) _ (label_at hu hat2.head)
  have h5 := ((Goes.zero h4).post (fun u => label_step hat2.head u)).inds hat2.tail.head
  rw [BitVec.zero_add] at h5
  have h6 := h5.pre0 (h2 h) (h1.keeps Γ wr) h1.sp
  refine cast ?_ h6
  congr 1
  simp; omega

theorem sim_loopNext (hΓ : Γ.Ok) (hg : g.level = Γ.level) (hu : Uniq p) {x : Variable} {t : IntTy}
    {down : Bool} {i hi : Int} {st : S .stmt} {σ τ υ : State} {o o' : Outcome} (h : goesOn down i hi)
    (hτ : τ.store x = some (.num t (wrap t i)))
    (ih : Sim lib addr p g Γ ro b wr cn (.stmt st) σ o τ) (ho : o ≠ .break_)
    (ih' : Sim lib addr p g Γ ro b wr cn (.loop x t down (after1 down i) hi st)
      (τ.set x (.num t (wrap t (after1 down i)))) o' υ) :
    Sim lib addr p g Γ ro b wr cn (.loop x t down i hi st) σ o' υ := by
  intro m l k r s hy hty ht hok hro hat0 hi' hh he hb hv hσ hc hf
  obtain ⟨u, h1, h2, _⟩ := loop_head (lib := lib) (addr := addr) hΓ hg hy hty ht hat0 hi' hh hb hv hσ
    hc (hf.mono (by omega))
  have hat := hat0
  simp only [loopCode, hg] at hat
  have hat2 := hat.tail.tail.tail.tail.right
  have hat3 := hat.tail.tail.tail.tail.left
  have hb' : b ≤ s.top := by omega
  have h3 := ih _ _ _ _ u true true hok hro hat3 (h1.in_ hi' hb') (h1.good hi' hb' hh) (h1.even he)
    (by rw [h1.top]; exact hb') (h1.free (hf.mono (by omega)))
  have h4 := h3.skip (sim_line hat3 u)
  have h5 : Goes lib addr p Γ ro b wr (k + 1 + 1 + 1 + 1, u) (k + 1 + 1 + 1 + 1 +
      (codeS g st m (l + 3) ⟨l + 3, l + 2, 0, 0, 0, r⟩).length) 0#16 τ := by
    cases o with
    | normal => exact h4
    | break_ => exact absurd rfl ho
    | continue_ => exact h4 _ (label_at hu hat2.head)
  obtain ⟨v, v1, v2, v3, v4⟩ := h5.pre0 (h2 h) (h1.keeps Γ wr) h1.sp
  have v3 : v.sp = s.sp := by rw [v3]; simp
  have v2 : Γ.Keeps wr s v := v2
  obtain ⟨w, w1, w2, w3, w4⟩ := loop_tail (lib := lib) (addr := addr) hΓ (down := down) hy hty ht hat2
    (v2.in_ hi' hb') v4 (by rw [keeps_top v3]; exact hb') hτ (v2.free v3 (hf.mono (by omega)))
  have w3 : w.sp = s.sp := by rw [w3]; simp [v3]
  have w2 : Γ.Keeps wr v w := w2
  have hk := v2.trans w2 (by rw [keeps_top v3]; exact Nat.le_refl _)
  obtain ⟨f1, f2⟩ := ih' m l k r w hy hty ht hok hro hat0 (hk.in_ hi' hb') w4 (by rw [w3]; exact he)
    (by rw [keeps_top w3]; exact hb)
    (by rw [keeps_top w3, hk.above hi' hΓ (Nat.le_refl _) hb]; exact hv)
    (by simp [State.set, Store.set]) (counts_next hc h) (hk.free w3 hf)
  refine ⟨f1, f2.pre0 ?_ hk w3⟩
  exact (v1.append w1).append (jmp_step hat2.tail.tail.tail.tail.head (label_at hu hat.head) w)

theorem countable_counts {t : IntTy} (ht : t = .integer ∨ t = .word) {down : Bool} {i hi : Int}
    (h1 : wrap t i = i) (h2 : wrap t hi = hi) (h : Countable t down i hi) : Counts down i hi := by
  rcases ht with rfl | rfl
  · rw [wrap_signed rfl] at h1 h2
    have a1 := Int.le_bmod (x := i) (m := 65536) (by decide)
    have a2 := Int.bmod_lt (x := i) (m := 65536) (by decide)
    have a3 := Int.le_bmod (x := hi) (m := 65536) (by decide)
    have a4 := Int.bmod_lt (x := hi) (m := 65536) (by decide)
    rw [h1] at a1 a2; rw [h2] at a3 a4
    refine ⟨by omega, by omega, by omega, by omega, ?_⟩
    exact h
  · rw [wrap_unsigned rfl] at h1 h2
    obtain ⟨c1, c2, c3⟩ := h
    refine ⟨by omega, by omega, by omega, by omega, ?_⟩
    cases down
    · exact c3 rfl
    · show -32768 < hi; omega

theorem sim_for (hΓ : Γ.Ok) (hg : g.level = Γ.level) {x : Variable} {down : Bool}
    {a c : E .expr} {st : S .stmt} {σ τ : State} {t : IntTy} {i hi : Int} {o : Outcome}
    (h1 : a.eval σ.store (.a x.ty) = some (.num t i)) (h2 : c.eval σ.store (.a x.ty) = some (.num t hi))
    (h3 : Countable t down i hi)
    (ih : Sim lib addr p g Γ ro b wr cn (.loop x t down i hi st) (σ.set x (.num t i)) o τ) :
    Sim lib addr p g Γ ro b wr cn (.stmt (.for_ x down a c st)) σ o τ := by
  intro m l x' k s bb cc hok hro hat hi' hh he hb hf
  obtain ⟨o1, o2, o3, o4, o5, o7⟩ := hok
  obtain ⟨hf1, hf2⟩ := free_max hf
  obtain ⟨hf1, hf1'⟩ := free_max hf1
  have hlen : k + (codeS g (.for_ x down a c st) m l x').length = k + 1 +
      (code g.level (.a x.ty) a).length + 1 + (code g.level (.a x.ty) c).length +
      (loopCode g x down st (m - (a.toks.length + c.toks.length + 5)) l x'.ro).length := by
    simp [codeS, loopCode]; omega
  rw [hlen]
  have hat' : At p k (lineI g m :: (code Γ.level (.a x.ty) a ++ (ref Γ.level .sts x ::
      (code Γ.level (.a x.ty) c ++
      loopCode g x down st (m - (a.toks.length + c.toks.length + 5)) l x'.ro)))) := by
    rw [← hg]; exact hat
  have hst : Op.sts = stO x.ty := by rcases o2 with o2 | o2 <;> rw [o2] <;> rfl
  obtain ⟨r1, r2, u, u1, u2, u3, u4⟩ := assign_steps (lib := lib) (addr := addr) hΓ o1 o3 h1 hi' hh.has.holds hb
    hf1 hst hat'.tail
  have hxt : x.ty = .num t := r2.symm
  have ht : t = .integer ∨ t = .word := by
    rcases o2 with o2 | o2 <;> rw [hxt] at o2 <;> cases o2
    · exact .inl rfl
    · exact .inr rfl
  rw [loop_trim ht] at u4
  have h2' : c.eval (σ.store.set x (.num t i)) (.a x.ty) = some (.num t hi) := by rw [eval_set _ _ _ _ o5, h2]
  have hbu : b ≤ u.top := by rw [keeps_top u3]; exact hb
  have hiu := u2.in_ hi' hb
  have hatc := hat'.tail.right.tail
  obtain ⟨v, v1, v2, v3, v4⟩ := runs lib hΓ c _ _ _ u o4.2 h2' o4.1 hiu u4 hbu (u2.free u3 hf1')
  have hf1u : Free u 1 := (u2.free u3 hf1').mono (toks_pos c)
  have htop := v2.top hf1u
  have hsame := v2.same hbu
  obtain ⟨f1, f2⟩ := ih _ _ _ _ v o1 hxt ht o7 hro hatc.right (hsame.in_ hiu)
    ((hh.of_keeps (S := σ.store.set x (.num t i)) hb u2 u4).of_keeps hbu (v2.keeps Γ false) (hsame.holds hiu u4))
    (by rw [v2.sp, u3]; exact even_add 1 he)
    (by omega) (by rw [htop]; exact v2.value) (by simp [State.set, Store.set]; exact r1.symm)
    (countable_counts ht r1 v3 h3)
    (v2.free ((u2.free u3 hf2).mono (by omega)))
  subst f1
  have hk : Γ.Keeps wr u v := v2.keeps Γ wr
  have h5 := f2.pre (v1.steps hatc.left) hk (by omega) v2.sp (d' := 0#16) (by decide)
  have h6 : Goes lib addr p Γ ro b wr (k + 1, s) _ 0#16 τ := h5.pre0 u1 (u2.quiet' _) u3
  rw [hg]
  exact h6

theorem sim_write (hΓ : Γ.Ok) (hg : g.level = Γ.level) {ln file : Bool} {i : Item} {is : List Item} {σ : State}
    {text old : List Byte} (h1 : σ.out = some old) (h2 : Texts σ.store (i :: is) text) :
    Sim lib addr p g Γ ro b wr cn (.stmt (.write ln file i is)) σ .normal
      { σ with out := some (old ++ text ++ if ln then [10#8] else []) } := by
  intro m l c k s bb cc hok hro hat hi hh he hb hf
  simp only [codeS, hg] at hat ⊢
  have hwr : wr = true := by
    cases wr with
    | true => rfl
    | false => have := (hh.quiet rfl).1; rw [h1] at this; cases this
  subst hwr
  have ho := hh.has.output _ h1
  obtain ⟨t, r, w⟩ := write_runs hΓ h2 hok hi hh.has.holds ho hb hf hro ln
  have hsame := w.same hb
  rw [List.append_assoc]
  refine ⟨t, ?_, w.keeps Γ, by rw [w.sp]; simp, ⟨hsame.holds hi hh.has.holds, fun z hz => ?_,
    fun z hz => w.input (hh.has.input z hz) hb⟩, fun h => by cases h⟩
  · have := r.steps (addr := addr) hat.tail
    refine cast ?_ this
    congr 2
    simp; omega
  · cases hz
    exact w.output ho hb

theorem sim_newline (hΓ : Γ.Ok) {parens : Bool} {σ : State}
    {old : List Byte} (h1 : σ.out = some old) :
    Sim lib addr p g Γ ro b wr cn (.stmt (.newline parens)) σ .normal
      { σ with out := some (old ++ [10#8]) } := by
  intro m l c k s bb cc hok hro hat hi hh he hb hf
  simp only [codeS] at hat ⊢
  have hwr : wr = true := by
    cases wr with
    | true => rfl
    | false => have := (hh.quiet rfl).1; rw [h1] at this; cases this
  subst hwr
  have ho := hh.has.output _ h1
  obtain ⟨t, r, w⟩ := write_runs (pad := 0#8) hΓ (.nil : Texts σ.store [] []) (fun j hj => by cases hj) hi hh.has.holds ho hb hf
    (q := []) (by simp [itemsRo]) true
  have hsame := w.same hb
  refine ⟨t, ?_, w.keeps Γ, by rw [w.sp]; simp, ⟨hsame.holds hi hh.has.holds, fun z hz => ?_,
    fun z hz => w.input (hh.has.input z hz) hb⟩, fun h => by cases h⟩
  · exact r.steps (addr := addr) hat.tail
  · cases hz
    exact w.output ho hb

theorem sim_reading (hΓ : Γ.Ok) {ln : Bool} {xs : List Variable} {σ τ υ : State} (h : ReadVars xs σ τ)
    (h' : if ln then NextLine τ υ else υ = τ) (hin : ∃ i, σ.inp = some i)
    (hok : ∀ y ∈ xs, Γ.vars y ∧ (y.ty = .num .integer ∨ y.ty = .char)) {k : Nat} {s : VM}
    (hat : At p (k + 1) (ins .ld 0 0 :: (codeVs Γ.level xs ++
      [if ln then ins .sysio 0 0x11 else ins .inds 0 (-2)])))
    (hi : Γ.In s b) (hh : Good lib Γ ro b wr s σ) (hb : b ≤ s.top) (hf : Free s 1) (hf' : xs ≠ [] → Free s 3) :
    Goes lib addr p Γ ro b wr (k + 1, s) (k + 1 + (ins .ld 0 0 :: (codeVs Γ.level xs ++
      [if ln then ins .sysio 0 0x11 else ins .inds 0 (-2)])).length) 0#16 υ := by
  have hwr : wr = true := by
    cases wr with
    | true => rfl
    | false =>
      obtain ⟨i, hin⟩ := hin
      have := (hh.quiet rfl).2; rw [hin] at this; cases this
  subst hwr
  obtain ⟨t, r, k1, k2, k3⟩ := read_runs hΓ h h' hin hok hi hh.has hb hf hf'
  exact ⟨t, r.steps (addr := addr) hat, k1, by rw [k2]; simp, k3, fun h => by cases h⟩

theorem ReadVars.inp {xs : List Variable} {σ τ : State} {x : Variable} (h : ReadVars (x :: xs) σ τ) :
    ∃ i, σ.inp = some i := by
  cases h with
  | cons h _ _ => exact ⟨_, h⟩

theorem sim_read (hΓ : Γ.Ok) (hg : g.level = Γ.level) {ln file : Bool} {x : Variable} {xs : List Variable}
    {σ τ υ : State} (h : ReadVars (x :: xs) σ τ) (h' : if ln then NextLine τ υ else υ = τ) :
    Sim lib addr p g Γ ro b wr cn (.stmt (.read ln file x xs)) σ .normal υ := by
  intro m l c k s bb cc hok hro hat hi hh he hb hf
  simp only [codeS, hg] at hat ⊢
  have := sim_reading (lib := lib) (addr := addr) hΓ h h' h.inp hok hat.tail hi hh hb (hf.mono (by
    show 1 ≤ 3; omega)) (fun _ => hf)
  refine cast ?_ this
  show Goes _ _ _ _ _ _ _ _ _ _ _ = Goes _ _ _ _ _ _ _ _ _ _ _
  congr 1
  simp; omega

theorem sim_skipLine (hΓ : Γ.Ok) {parens : Bool} {σ τ : State} (h : NextLine σ τ) :
    Sim lib addr p g Γ ro b wr cn (.stmt (.skipLine parens)) σ .normal τ := by
  intro m l c k s bb cc hok hro hat hi hh he hb hf
  simp only [codeS] at hat ⊢
  have hin : ∃ i, σ.inp = some i := by
    obtain ⟨h, _⟩ := h
    exact ⟨_, h⟩
  exact sim_reading (lib := lib) (addr := addr) (ln := true) (xs := []) hΓ .nil h hin
    (fun y hy => by cases hy) hat.tail hi hh hb hf (fun h => absurd rfl h)

/-! ### Calls -/

/-- The code of the parameters pushes their values. -/
theorem args_runs (lib : Lib) {Γ : Env} (hΓ : Γ.Ok) {σ : Store} {b cn : Nat} : ∀ (ts : List Ty)
    (es : List (E .expr)) (vs : List Val) (s : VM), ParmsOk Γ.vars ts es → argVals σ ts es = some vs →
    Γ.In s b → Γ.Holds s.mem σ → b ≤ s.top → Free s (argsNeed cn es) →
    ∃ (t : VM) (us : List Val), Runs lib (codeA Γ.level ts es) s t ∧ us.map Val.trim = vs ∧
      us.map Val.ty = ts ∧ (∀ v ∈ us, v.Ranged) ∧
      t = { s with
        sp := s.sp + BitVec.ofNat 16 (2 * us.length)
        mem := t.mem } ∧
      (∀ i v, us[i]? = some v → t.mem (s.top + 1 + i) = v.word) ∧
      (∀ j, j ≤ s.top → t.mem j = s.mem j) ∧ Free t cn ∧ t.top = s.top + us.length := by
  intro ts
  induction ts with
  | nil =>
    intro es vs s hok hv hi hh hb hf
    cases es with
    | cons e es => cases hok
    | nil =>
      cases hv
      refine ⟨s, [], .nil s, rfl, rfl, (fun v hv => by cases hv), ?_, (fun i v h => by simp at h),
        fun _ _ => rfl, hf, rfl⟩
      simp
  | cons ty ts ih =>
    intro es vs s hok hv hi hh hb hf
    cases es with
    | nil => cases hok
    | cons e es =>
      obtain ⟨ho1, ho2⟩ := hok
      simp only [argVals, Option.bind_eq_bind, Option.bind_eq_some_iff, Option.pure_def,
        Option.some.injEq] at hv
      obtain ⟨v, hv1, ws, hv2, rfl⟩ := hv
      obtain ⟨hf1, hf2⟩ := free_max hf
      have hfr1 : Free s 1 := hf1.mono (toks_pos e)
      obtain ⟨t, h1, h2, h3, h4⟩ := runs lib hΓ e _ _ _ s ho1.2 hv1 ho1.1 hi hh hb hf1
      have hsame := h2.same hb
      have htop := h2.top hfr1
      obtain ⟨u, us, g1, g2, g3, g4, g5, g6, g7, g8, g9⟩ := ih es ws t ho2 hv2 (hsame.in_ hi)
        (hsame.holds hi hh) (by omega) (h2.free (hf2.mono (by omega)))
      refine ⟨u, v :: us, h1.append g1, by simp [g2], by simp [g3, h4], ?_, ?_, ?_, ?_, g8, ?_⟩
      · intro w hw
        rcases List.mem_cons.1 hw with rfl | hw
        · exact h3
        · exact g4 w hw
      · have e1 := regs_set h2.regs (t.sp + BitVec.ofNat 16 (2 * us.length)) u.mem
        refine g5.trans (e1.trans ?_)
        congr 1
        rw [h2.sp, List.length_cons]
        apply BitVec.eq_of_toNat_eq
        simp
        omega
      · intro i w hw
        cases i with
        | zero =>
          simp at hw
          subst hw
          rw [Nat.add_zero, g7 _ (by omega)]
          exact h2.value
        | succ i =>
          simp at hw
          have := g6 i w hw
          rw [htop] at this
          rw [← this]
          congr 1
          omega
      · intro j hj
        rw [g7 j (by omega)]
        exact h2.kept j (.inl hj)
      · rw [g9, htop]; simp; omega

theorem sim_call {P : Effects} (hΓ : Γ.Ok) (hg : g.level = Γ.level) (hP : CallsDo lib addr p Γ ro b wr cn P)
    {q : Proc} {args : List (E .expr)} {σ τ : State} {vs : List Val}
    (h1 : argVals σ.store q.parms args = some vs) (h2 : P q vs σ τ) :
    Sim lib addr p g Γ ro b wr cn (.stmt (.call q args)) σ .normal τ := by
  intro m l c k s bb cc hok hro hat hi hh he hb hf
  obtain ⟨hpq, hargs⟩ := hok
  simp only [codeS, hg] at hat ⊢
  obtain ⟨t, us, r1, r2, r3, r4, r5, r6, r7, r8, r9⟩ := args_runs lib hΓ q.parms args vs s hargs h1 hi
    hh.has.holds hb hf
  subst r2
  have hlen : us.length = q.parms.length := by rw [← r3]; simp
  have hsame : Same b s t := ⟨by rw [r5], by rw [r5], by rw [r5], fun j hj => r7 j (by omega), by rw [r5]⟩
  have hk : Γ.Keeps false s t := keeps_of_regs r5 (fun a ha _ => by unfold byte; rw [r7 _ ha]) _
  have hsp : t.sp - BitVec.ofNat 16 (2 * us.length) = s.sp := by
    have : t.sp = s.sp + BitVec.ofNat 16 (2 * us.length) := by rw [r5]
    rw [this]; exact BitVec.add_sub_cancel _ _
  have hat2 := hat.tail.right
  obtain ⟨u, u1, u2, u3, u4⟩ := hP q us σ τ _ t hpq h2 r3 r4 hat2.head (hsame.in_ hi)
    (hh.of_keeps hb hk (hsame.holds hi hh.has.holds)) (by rw [r5]; exact even_add _ he) (by omega) (by
      intro i v hv
      have := r6 i v hv
      rw [← this]; congr 1; omega) r8
  have hk2 : Γ.Keeps wr s u := by
    refine (hk.setSp s.sp |>.quiet' wr).trans (t := { t with sp := s.sp }) ?_ (Nat.le_refl _)
    rw [hsp] at u2; exact u2
  have hsteps := (r1.steps (addr := addr) hat.tail.left).append u1
  by_cases hnil : q.parms = []
  · have h0 : us.length = 0 := by rw [hlen, hnil]; rfl
    refine ⟨u, ?_, hk2, ?_, u4⟩
    · refine cast ?_ hsteps
      congr 2
      simp [callCode, hnil]; omega
    · rw [u3, BitVec.add_zero]; rw [h0] at hsp; simpa using hsp
  · have hi2 : p[k + 1 + (codeA Γ.level q.parms args).length + 1]? =
        some (ins .inds 0 (-(2 * q.parms.length : Nat))) := by
      have := hat2.tail
      rw [if_neg hnil] at this
      exact this.head
    have h0 : Goes lib addr p Γ ro b wr (k + 1, s) (k + 1 + (codeA Γ.level q.parms args).length + 1)
        (BitVec.ofNat 16 (2 * us.length)) τ :=
      ⟨u, hsteps, hk2, by rw [u3, r5], u4⟩
    have h3 := h0.inds hi2
    have e : BitVec.ofNat 16 (2 * us.length) + BitVec.ofInt 16 (-((2 * q.parms.length : Nat) : Int)) =
        0#16 := by
      rw [hlen, BitVec.ofInt_neg, BitVec.ofInt_natCast, ← BitVec.sub_eq_add_neg, BitVec.sub_self]
    rw [e] at h3
    refine cast ?_ h3
    congr 1
    simp [callCode, hnil]; omega

/-! ### All statements -/

/-- A statement without BREAK and CONTINUE ends normally. -/
theorem exec_ok {P : Effects} {c : Cmd} {σ τ : State} {o : Outcome} (h : Exec P c σ o τ) :
    match c with
    | .stmt st => ∀ bb cc, st.Ok Γ.vars Γ.procs bb cc → (o = .break_ → bb = true) ∧ (o = .continue_ → cc = true)
    | .list st => ∀ bb cc, st.Ok Γ.vars Γ.procs bb cc → (o = .break_ → bb = true) ∧ (o = .continue_ → cc = true)
    | .cases _ st => ∀ bb cc, st.Ok Γ.vars Γ.procs bb cc → (o = .break_ → bb = true) ∧ (o = .continue_ → cc = true)
    | .loop _ _ _ _ _ _ => o = .normal := by
  induction h with
  | empty | assign _ | assignAt _ _ _ | thenFalse _ | whileEnd _ | whileBreak _ _ _ | repeatEnd _ _ _ _ | repeatBreak _ _
  | lastNo _ | write _ _ | newline _ | read _ | readln _ _ | skipLine _ | call _ _ => exact fun _ _ _ => ⟨(fun h => by cases h), fun h => by cases h⟩
  | thenTrue _ _ ih => exact fun bb cc hok => ih bb cc hok.2
  | elseTrue _ _ ih => exact fun bb cc hok => ih bb cc hok.2.1
  | elseFalse _ _ ih => exact fun bb cc hok => ih bb cc hok.2.2.1
  | whileNext _ _ _ _ _ ih => exact ih
  | repeatNext _ _ _ _ _ ih => exact ih
  | for_ _ _ _ _ ih => intro bb cc _; cases ih; exact ⟨(fun h => by cases h), fun h => by cases h⟩
  | loopEnd | loopBreak => rfl
  | loopNext _ _ _ _ _ _ ih => exact ih
  | case_ _ _ ih => exact fun bb cc ⟨_, _, _, hok⟩ => ih bb cc hok
  | block _ ih => exact ih
  | break_ => exact fun bb cc hok => ⟨fun _ => hok, fun h => by cases h⟩
  | continue_ => exact fun bb cc hok => ⟨(fun h => by cases h), fun _ => hok⟩
  | one _ ih => exact ih
  | consStop _ _ ih => exact fun bb cc hok => ih bb cc hok.1
  | cons _ _ _ ih => exact fun bb cc hok => ih bb cc hok.2
  | lastYes _ _ ih => exact ih
  | moreYes _ _ ih => exact fun bb cc hok => ih bb cc hok.1
  | moreNo _ _ ih => exact fun bb cc hok => ih bb cc hok.2
  | otherwise _ ih => exact ih

theorem sim (lib : Lib) (addr : Nat → Word) (b : Nat) (ro : List Byte) (wr : Bool) (hΓ : Γ.Ok) (hg : g.level = Γ.level)
    (hu : Uniq p) {P : Effects} {cn : Nat} (hP : CallsDo lib addr p Γ ro b wr cn P) {c : Cmd}
    {σ τ : State} {o : Outcome} (h : Exec P c σ o τ) :
    Sim lib addr p g Γ ro b wr cn c σ o τ := by
  induction h with
  | empty =>
    intro m l c k s bb cc _ _ _ _ hh _ _ _
    exact Out.here (.refl _) hh
  | assign h => exact sim_assign hΓ hg h
  | assignAt h1 h2 h3 => exact sim_assignAt hΓ hg h1 h2 h3
  | write h1 h2 => exact sim_write hΓ hg h1 h2
  | newline h => exact sim_newline hΓ h
  | read h => exact sim_read hΓ hg h rfl
  | readln h h' => exact sim_read hΓ hg h h'
  | skipLine h => exact sim_skipLine hΓ h
  | call h1 h2 => exact sim_call hΓ hg hP h1 h2
  | thenTrue h _ ih => exact sim_thenTrue hΓ hg h ih
  | thenFalse h => exact sim_thenFalse hΓ hg hu h
  | elseTrue h _ ih => exact sim_elseTrue hΓ hg hu h ih
  | elseFalse h _ ih => exact sim_elseFalse hΓ hg hu h ih
  | whileEnd h => exact sim_whileEnd hΓ hg hu h
  | whileBreak h _ ih => exact sim_whileBreak hΓ hg hu h ih
  | whileNext h _ ho _ ih ih' => exact sim_whileNext hΓ hg hu h ih ho ih'
  | @repeatEnd ls e σ o τ hx ho h ih =>
    intro m l c k s bb cc hok
    have : o = .normal := by
      have := exec_ok (Γ := Γ) hx true false hok.1
      cases o with
      | normal => rfl
      | break_ => exact absurd rfl ho
      | continue_ => exact absurd (this.2 rfl) (by decide)
    subst this
    exact sim_repeatEnd hΓ hg h ih m l c k s bb cc hok
  | repeatBreak _ ih => exact sim_repeatBreak hu ih
  | @repeatNext ls e σ o τ o' υ hx ho h _ ih ih' =>
    intro m l c k s bb cc hok
    have : o = .normal := by
      have := exec_ok (Γ := Γ) hx true false hok.1
      cases o with
      | normal => rfl
      | break_ => exact absurd rfl ho
      | continue_ => exact absurd (this.2 rfl) (by decide)
    subst this
    exact sim_repeatNext hΓ hg hu h ih ih' m l c k s bb cc hok
  | for_ h1 h2 h3 _ ih => exact sim_for hΓ hg h1 h2 h3 ih
  | loopEnd h => exact sim_loopEnd hΓ hg hu h
  | loopBreak h _ ih => exact sim_loopBreak hΓ hg hu h ih
  | loopNext h _ ho hτ _ ih ih' => exact sim_loopNext hΓ hg hu h hτ ih ho ih'
  | case_ h _ ih => exact sim_case hΓ hg hu h ih
  | block _ ih =>
    intro m l c k s bb cc hok hro hat hi hh he hb hf
    simp only [codeS] at hat ⊢
    have := ih _ _ _ _ s bb cc hok hro hat.tail hi hh he hb hf
    refine cast ?_ this
    congr 1
    simp; omega
  | break_ =>
    intro m l c k s bb cc hok hro hat hi hh he hb hf kb hkb
    simp only [codeS] at hat
    exact sim_leave hat.tail hh hkb
  | continue_ =>
    intro m l c k s bb cc hok hro hat hi hh he hb hf kb hkb
    simp only [codeS] at hat
    exact sim_leave hat.tail hh hkb
  | one _ ih =>
    intro m l c k s bb cc hok hro hat hi hh he hb hf
    simp only [codeS] at hat ⊢
    exact (ih _ _ _ _ s bb cc hok hro hat hi hh he hb hf).skip (sim_line hat s)
  | @consStop st ls σ o τ _ ho ih =>
    intro m l c k s bb cc hok hro hat hi hh he hb hf
    simp only [codeS] at hat
    have h1 := (ih _ _ _ _ s bb cc hok.1 (pre_left hro) hat.left hi hh he hb (free_max hf).1).skip (sim_line hat.left s)
    cases o with
    | normal => exact absurd rfl ho
    | break_ => exact h1
    | continue_ => exact h1
  | cons _ _ ih ih' => exact sim_cons ih ih'
  | lastYes h _ ih => exact sim_lastYes hu h ih
  | lastNo h => exact sim_lastNo hu h
  | moreYes h _ ih => exact sim_moreYes hu h ih
  | moreNo h _ ih => exact sim_moreNo hu h ih
  | otherwise _ ih =>
    intro m l c k s bb cc ty hok hro _ _ _ hat hi hh he hb _ hf hfin
    simp only [codeS] at hat ⊢
    have hat2 := hat.tail
    have h1 := (ih _ _ _ _ s bb cc hok hro hat2 hi hh he (by omega) (hf.mono (by simp only [S.need]; omega))).skip
      (sim_line hat2 s)
    have h2 := h1.pre (label_step hat.head s) (Env.Keeps.refl _ _ _) rfl
    refine cast ?_ h2
    congr 1
    simp; omega

end

end Pas.Src
