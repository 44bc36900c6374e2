import Verif.Spec.Forever
import Verif.Lemmas.CallRun
import Verif.Lemmas.PCode

/-! The code of statements that go on forever. -/
namespace Pas.Src
open Pas.Spec Pas.Comp

/-! ### Long runs -/

section
variable {lib : Lib} {addr : Nat → Word} {p : List OpType} {g : Cfg} {Γ : Env} {b : Nat}
  {ro : List Byte} {wr : Bool} {cn : Nat}

theorem _root_.Pas.Spec.Long.less {n : Nat} : ∀ {c : Nat × VM}, Long lib addr p (n + 1) c → Long lib addr p n c := by
  induction n with
  | zero => exact fun _ => trivial
  | succ n ih => exact fun ⟨c', h, h'⟩ => ⟨c', h, ih h'⟩

theorem _root_.Pas.Spec.Long.pre {n : Nat} {c c' : Nat × VM} (h : PSteps lib addr p c c') (hl : Long lib addr p n c') :
    Long lib addr p n c := by
  induction h with
  | refl c => exact hl
  | step h _ ih => exact Long.less ⟨_, h, ih hl⟩

/-- `T` holds where a state with `T` can be reached from. -/
def Back (lib : Lib) (addr : Nat → Word) (p : List OpType) (T : Nat × VM → Prop) : Prop :=
  ∀ {c c' : Nat × VM}, PSteps lib addr p c c' → T c' → T c

/-- There is a step to `T`. -/
def OneMore (lib : Lib) (addr : Nat → Word) (p : List OpType) (T : Nat × VM → Prop) (c : Nat × VM) : Prop :=
  ∃ c', PStep lib addr p c c' ∧ T c'

theorem label_one {k l : Nat} (h : p[k]? = some (labI l)) (s : VM) :
    PStep lib addr p (k, s) (k + 1, s) := .mark h (by rfl)

theorem oneMore_pre {T : Nat × VM → Prop} (hT : Back lib addr p T) {c c' : Nat × VM}
    (h : PSteps lib addr p c c') (h' : OneMore lib addr p T c') : OneMore lib addr p T c := by
  cases h with
  | refl => exact h'
  | step h1 h2 =>
    obtain ⟨d, h3, h4⟩ := h'
    exact ⟨_, h1, hT (h2.append (one_step h3)) h4⟩

/-- The size of a phrase. -/
def S.weight : {k : SK} → S k → Nat
  | _, .ifThen _ s => s.weight + 1
  | _, .ifElse _ s t => s.weight + t.weight + 1
  | _, .while_ _ s => s.weight + 1
  | _, .repeat_ l _ => l.weight + 1
  | _, .for_ _ _ _ _ s => s.weight + 2
  | _, .case_ _ cs => cs.weight + 1
  | _, .block l => l.weight + 1
  | _, .one s => s.weight + 1
  | _, .cons s l => s.weight + l.weight + 1
  | _, .last _ _ s _ => s.weight + 1
  | _, .more _ _ s cs => s.weight + cs.weight + 1
  | _, .otherwise s _ => s.weight + 1
  | _, _ => 0

def Cmd.weight : Cmd → Nat
  | .stmt s => s.weight
  | .list l => l.weight
  | .cases _ cs => cs.weight
  | .loop _ _ _ _ _ s => s.weight + 1

variable (lib addr p g Γ ro b wr cn)

/-- From the start of the code `T` holds. -/
def LongSim (T : Nat × VM → Prop) : Cmd → State → Prop
  | .stmt st, σ => ∀ (m l : Nat) (x : Ctx) (k : Nat) (s : VM) (bb cc : Bool),
      st.Ok Γ.vars Γ.procs bb cc → x.ro ++ st.ro g.pad <+: ro → At p k (codeS g st m l x) → Γ.In s b → Good lib Γ ro b wr s σ → s.sp.toNat % 2 = 0 → b ≤ s.top →
      Free s (st.need cn) → T (k + 1, s)
  | .list ls, σ => ∀ (m l : Nat) (x : Ctx) (k : Nat) (s : VM) (bb cc : Bool),
      ls.Ok Γ.vars Γ.procs bb cc → x.ro ++ ls.ro g.pad <+: ro → At p k (codeS g ls m l x) → Γ.In s b → Good lib Γ ro b wr s σ → s.sp.toNat % 2 = 0 → b ≤ s.top →
      Free s (ls.need cn) → T (k, s)
  | .cases v cs, σ => ∀ (m l : Nat) (x : Ctx) (k : Nat) (s : VM) (bb cc : Bool) (ty : Ty),
      cs.Ok Γ.vars Γ.procs bb cc → x.ro ++ cs.ro g.pad <+: ro → cs.labels ty → v.ty = ty → v.Ranged →
      At p k (codeS g cs m l x) →
      Γ.In s b → Good lib Γ ro b wr s σ → s.sp.toNat % 2 = 0 → b < s.top → s.mem s.top = v.word →
      Free s (max 2 (cs.need cn)) → T (k, s)
  | .loop y t down i hi st, σ => ∀ (m l k : Nat) (r : List Byte) (s : VM), Γ.vars y → y.ty = .num t →
      (t = .integer ∨ t = .word) → st.Ok Γ.vars Γ.procs true true →
      r ++ st.ro g.pad <+: ro → At p k (loopCode g y down st m l r) → Γ.In s b → Good lib Γ ro b wr s σ → s.sp.toNat % 2 = 0 → b < s.top →
      s.mem s.top = BitVec.ofInt 16 hi → σ.store y = some (.num t (wrap t i)) → Counts down i hi →
      Free s (max 2 (st.need cn)) → T (k, s)

/-- From calls that do not end `T` holds. -/
def CallsLong (T : Nat × VM → Prop) (N : Endless) : Prop :=
  ∀ (q : Proc) (vs : List Val) (σ : State) (k : Nat) (s : VM), Γ.procs q →
    N q (vs.map Val.trim) σ → vs.map Val.ty = q.parms → (∀ v ∈ vs, v.Ranged) →
    p[k]? = some (ins .pcal (q.level + 1 : Nat) q.label) → Γ.In s b → Good lib Γ ro b wr s σ →
    s.sp.toNat % 2 = 0 →
    b + vs.length ≤ s.top →
    (∀ i v, vs[i]? = some v → s.mem (s.top - vs.length + 1 + i) = v.word) → Free s cn →
    T (k, s)

variable {lib addr p g Γ ro b wr cn}

theorem long_thenTrue (hΓ : Γ.Ok) (hg : g.level = Γ.level) {T : Nat × VM → Prop} (hT : Back lib addr p T) {e : E .expr} {st : S .stmt}
    {σ : State} (h : e.eval σ.store (.a .bool) = some (.bool true))
    (ih : LongSim lib p g Γ b ro wr cn T (.stmt st) σ) :
    LongSim lib p g Γ b ro wr cn T (.stmt (.ifThen e st)) σ := by
  intro m l c k s bb cc hok hro hat hi hh he hb hf
  obtain ⟨ho1, ho2⟩ := hok
  obtain ⟨hf1, hf2⟩ := free_max hf
  simp only [codeS, hg] at hat
  obtain ⟨t, h1, h2, _⟩ := cond_steps (lib := lib) (addr := addr) hΓ ho1 h hi hh.has.holds hb hf1 hat.tail
  have hat2 := hat.tail.right.tail
  exact hT ((h2 rfl).append (sim_line hat2.left t)) (ih _ _ _ _ t bb cc ho2 hro hat2.left (h1.in_ hi hb)
    (h1.good hi hb hh) (h1.even he) (by rw [h1.top]; exact hb) (h1.free hf2))

theorem long_elseTrue (hΓ : Γ.Ok) (hg : g.level = Γ.level) {T : Nat × VM → Prop} (hT : Back lib addr p T) {e : E .expr}
    {st su : S .stmt} {σ : State} (h : e.eval σ.store (.a .bool) = some (.bool true))
    (ih : LongSim lib p g Γ b ro wr cn T (.stmt st) σ) :
    LongSim lib p g Γ b ro wr cn T (.stmt (.ifElse e st su)) σ := by
  intro m l c k s bb cc hok hro hat hi hh he hb hf
  obtain ⟨ho1, ho2, ho3, _⟩ := hok
  obtain ⟨hf1, hf2⟩ := free_max hf
  obtain ⟨hf2, hf3⟩ := free_max hf2
  simp only [codeS, hg] at hat
  obtain ⟨t, h1, h2, _⟩ := cond_steps (lib := lib) (addr := addr) hΓ ho1 h hi hh.has.holds hb hf1 hat.tail
  have hat2 := hat.tail.right.tail
  exact hT ((h2 rfl).append (sim_line hat2.left t)) (ih _ _ _ _ t bb cc ho2 (pre_left hro) hat2.left
    (h1.in_ hi hb) (h1.good hi hb hh) (h1.even he) (by rw [h1.top]; exact hb) (h1.free hf2))

theorem long_elseFalse (hΓ : Γ.Ok) (hg : g.level = Γ.level) (hu : Uniq p) {T : Nat × VM → Prop} (hT : Back lib addr p T) {e : E .expr}
    {st su : S .stmt} {σ : State} (h : e.eval σ.store (.a .bool) = some (.bool false))
    (ih : LongSim lib p g Γ b ro wr cn T (.stmt su) σ) :
    LongSim lib p g Γ b ro wr cn T (.stmt (.ifElse e st su)) σ := by
  intro m l c k s bb cc hok hro hat hi hh he hb hf
  obtain ⟨ho1, ho2, ho3, _⟩ := hok
  obtain ⟨hf1, hf2⟩ := free_max hf
  obtain ⟨hf2, hf3⟩ := free_max hf2
  simp only [codeS, hg] at hat
  obtain ⟨t, h1, _, h2⟩ := cond_steps (lib := lib) (addr := addr) hΓ ho1 h hi hh.has.holds hb hf1 hat.tail
  have hat4 := hat.tail.right.tail.right.tail
  exact hT (((h2 rfl _ (label_at hu hat4.head)).append (label_step hat4.head t)).append
    (sim_line hat4.tail.left t)) (ih _ _ _ _ t bb cc ho3 (pre_right hro) hat4.tail.left (h1.in_ hi hb)
    (h1.good hi hb hh) (h1.even he) (by rw [h1.top]; exact hb) (h1.free hf3))

theorem long_whileBody (hΓ : Γ.Ok) (hg : g.level = Γ.level) {T : Nat × VM → Prop} (hT : Back lib addr p T) {e : E .expr}
    {st : S .stmt} {σ : State} (h : e.eval σ.store (.a .bool) = some (.bool true))
    (ih : LongSim lib p g Γ b ro wr cn T (.stmt st) σ) :
    LongSim lib p g Γ b ro wr cn T (.stmt (.while_ e st)) σ := by
  intro m l c k s bb cc hok hro hat hi hh he hb hf
  obtain ⟨ho1, ho2⟩ := hok
  obtain ⟨hf1, hf2⟩ := free_max hf
  simp only [codeS, hg] at hat
  obtain ⟨t, h1, h2, _⟩ := cond_steps (lib := lib) (addr := addr) hΓ ho1 h hi hh.has.holds hb hf1 hat.tail.tail
  have hat2 := hat.tail.tail.right.tail
  exact hT (((label_step hat.tail.head s).append (h2 rfl)).append (sim_line hat2.left t))
    (ih _ _ ⟨l + 1, l + 2, 0, 0, 0, c.ro⟩ _ t true true ho2 hro hat2.left (h1.in_ hi hb) (h1.good hi hb hh)
    (h1.even he) (by rw [h1.top]; exact hb) (h1.free hf2))

theorem long_whileNext (hΓ : Γ.Ok) (hg : g.level = Γ.level) (hu : Uniq p) {T : Nat × VM → Prop} (hT : Back lib addr p T) {e : E .expr}
    {st : S .stmt} {σ τ : State} {o : Outcome} (h : e.eval σ.store (.a .bool) = some (.bool true))
    (ih : Sim lib addr p g Γ ro b wr cn (.stmt st) σ o τ) (ho : o ≠ .break_)
    (ih' : LongSim lib p g Γ b ro wr cn T (.stmt (.while_ e st)) τ) :
    LongSim lib p g Γ b ro wr cn (OneMore lib addr p T) (.stmt (.while_ e st)) σ := by
  intro m l c k s bb cc hok hro hat0 hi hh he hb hf
  have hok0 := hok
  obtain ⟨ho1, ho2⟩ := hok
  obtain ⟨hf1, hf2⟩ := free_max hf
  have hat := hat0
  simp only [codeS, hg] at hat
  obtain ⟨t, h1, h2, _⟩ := cond_steps (lib := lib) (addr := addr) hΓ ho1 h hi hh.has.holds hb hf1 hat.tail.tail
  have hat2 := hat.tail.tail.right.tail
  have := ih _ _ ⟨l + 1, l + 2, 0, 0, 0, c.ro⟩ _ t true true ho2 hro hat2.left (h1.in_ hi hb) (h1.good hi hb hh) (h1.even he)
    (by rw [h1.top]; exact hb) (h1.free hf2)
  have h3 := this.skip (sim_line hat2.left t)
  have hlab := label_at hu hat.tail.head
  have h4 : Goes lib addr p Γ ro b wr (k + 1 + 1 + (code Γ.level (.a .bool) e).length + 1, t) (k + 1) 0#16 τ := by
    cases o with
    | normal => exact Goes.post h3 (fun u => jmp_step hat2.right.head hlab u)
    | break_ => exact absurd rfl ho
    | continue_ => exact h3 _ hlab
  obtain ⟨u, u1, hk, hsp, hhu⟩ := h4.pre0 (h2 rfl) (h1.keeps Γ wr) h1.sp
  have hsp : u.sp = s.sp := by rw [hsp]; simp
  have hk : Γ.Keeps wr s u := hk
  exact ⟨_, label_one hat.tail.head s, hT u1 (ih' m l c k u bb cc hok0 hro hat0 (hk.in_ hi hb) hhu
    (by rw [hsp]; exact he) (by rw [keeps_top hsp]; exact hb) (hk.free hsp hf))⟩

theorem long_repeatBody {T : Nat × VM → Prop} (hT : Back lib addr p T) {e : E .expr} {ls : S .list} {σ : State}
    (ih : LongSim lib p g Γ b ro wr cn T (.list ls) σ) :
    LongSim lib p g Γ b ro wr cn T (.stmt (.repeat_ ls e)) σ := by
  intro m l c k s bb cc hok hro hat hi hh he hb hf
  obtain ⟨ho1, ho2⟩ := hok
  obtain ⟨hf1, hf2⟩ := free_max hf
  simp only [codeS] at hat
  exact hT (label_step hat.tail.head s) (ih _ _ ⟨l + 1, l + 2, 0, 0, 0, c.ro⟩ _ s true false ho1 hro
    hat.tail.tail.left hi hh he hb hf1)

theorem long_repeatNext (hΓ : Γ.Ok) (hg : g.level = Γ.level) (hu : Uniq p) {T : Nat × VM → Prop} (hT : Back lib addr p T) {e : E .expr}
    {ls : S .list} {σ τ : State} (h : e.eval τ.store (.a .bool) = some (.bool false))
    (ih : Sim lib addr p g Γ ro b wr cn (.list ls) σ .normal τ)
    (ih' : LongSim lib p g Γ b ro wr cn T (.stmt (.repeat_ ls e)) τ) :
    LongSim lib p g Γ b ro wr cn (OneMore lib addr p T) (.stmt (.repeat_ ls e)) σ := by
  intro m l c k s bb cc hok hro hat0 hi hh he hb hf
  have hok0 := hok
  obtain ⟨ho1, ho2⟩ := hok
  obtain ⟨hf1, hf2⟩ := free_max hf
  have hat := hat0
  simp only [codeS, hg] at hat
  obtain ⟨u, u1, hk, hsp, hhu⟩ :=
    ih _ _ ⟨l + 1, l + 2, 0, 0, 0, c.ro⟩ _ s true false ho1 hro hat.tail.tail.left hi hh he hb hf1
  have hat2 := hat.tail.tail.right
  have hsp : u.sp = s.sp := by rw [hsp]; simp
  have hk : Γ.Keeps wr s u := hk
  have hiu := hk.in_ hi hb
  have hbu : b ≤ u.top := by rw [keeps_top hsp]; exact hb
  obtain ⟨t, t1, _, t2⟩ := cond_steps (lib := lib) (addr := addr) hΓ ho2 h hiu hhu.has.holds
    hbu (hk.free hsp hf2) hat2
  exact ⟨_, label_one hat.tail.head s, hT (u1.append (t2 rfl _ (label_at hu hat.tail.head)))
    (ih' m l c k t bb cc hok0 hro hat0 (t1.in_ hiu hbu) (t1.good hiu hbu hhu) (t1.even (by rw [hsp]; exact he))
    (by rw [t1.top]; exact hbu) (t1.free (hk.free hsp hf)))⟩

theorem long_case (hΓ : Γ.Ok) (hg : g.level = Γ.level) {T : Nat × VM → Prop} (hT : Back lib addr p T) {e : E .expr}
    {cs : S .cases} {σ : State} {v : Val} (h : e.eval σ.store .ordinal = some v)
    (ih : LongSim lib p g Γ b ro wr cn T (.cases v cs) σ) :
    LongSim lib p g Γ b ro wr cn T (.stmt (.case_ e cs)) σ := by
  intro m l c k s bb cc hok hro hat hi hh he hb hf
  obtain ⟨ty, ho1, ho2, ho3⟩ := hok
  obtain ⟨hf1, hf2⟩ := free_max hf
  simp only [codeS, hg] at hat
  obtain ⟨t, h1, h2, h3, h4⟩ := runs lib hΓ e _ _ _ s ho1.2 h ho1.1 hi hh.has.holds hb hf1
  have hfr1 : Free s 1 := hf1.mono (toks_pos e)
  have hat2 := hat.tail.right
  have hsame := h2.same hb
  have htop := h2.top hfr1
  exact hT (h1.steps hat.tail.left) (ih _ _ ⟨c.cont, c.brk, c.adj - 2, l + 1, l + 2, c.ro⟩ _ t bb cc ty ho3 hro ho2 h4 h3 hat2.left (hsame.in_ hi)
    (hh.of_keeps hb (h2.keeps Γ _) (hsame.holds hi hh.has.holds)) (by rw [h2.sp]; exact even_add 1 he)
    (by omega) (by rw [htop]; exact h2.value)
    (h2.free (hf2.mono (by omega))))

theorem long_lastYes (hu : Uniq p) {T : Nat × VM → Prop} (hT : Back lib addr p T) {q : Const} {qs : List Const} {st : S .stmt} {semi : Bool}
    {v : Val} {σ : State} (h : ∃ c ∈ q :: qs, c.is v)
    (ih : LongSim lib p g Γ b ro wr cn T (.stmt st) σ) :
    LongSim lib p g Γ b ro wr cn T (.cases v (.last q qs st semi)) σ := by
  intro m l c k s bb cc ty hok hro hlab hty hr hat hi hh he hb hv hf
  obtain ⟨hf1, hf2⟩ := free_max hf
  simp only [codeS] at hat
  have hat2 := hat.tail.right
  obtain ⟨t, t1, t2, _⟩ := consts_steps (lib := lib) (addr := addr) hty hr qs q _ s hlab hv hf1
    hat.tail.left (label_at hu hat2.head)
  have hb' : b ≤ s.top := by omega
  exact hT ((((label_step hat.head s).append (t2 h)).append (label_step hat2.head t)).append
    (sim_line hat2.tail.left t)) (ih _ _ _ _ t bb cc hok hro hat2.tail.left (t1.in_ hi hb') (t1.good hi hb' hh)
    (t1.even he) (by rw [t1.top]; exact hb') (t1.free hf2))

theorem long_moreYes (hu : Uniq p) {T : Nat × VM → Prop} (hT : Back lib addr p T) {q : Const} {qs : List Const} {st : S .stmt} {cs : S .cases}
    {v : Val} {σ : State} (h : ∃ c ∈ q :: qs, c.is v)
    (ih : LongSim lib p g Γ b ro wr cn T (.stmt st) σ) :
    LongSim lib p g Γ b ro wr cn T (.cases v (.more q qs st cs)) σ := by
  intro m l c k s bb cc ty hok hro hlab hty hr hat hi hh he hb hv hf
  have hf1 : Free s 2 := hf.mono (by omega)
  have hf2 : Free s (st.need cn) := hf.mono (by simp only [S.need]; omega)
  simp only [codeS] at hat
  have hat2 := hat.tail.right
  obtain ⟨t, t1, t2, _⟩ := consts_steps (lib := lib) (addr := addr) hty hr qs q _ s hlab.1 hv hf1
    hat.tail.left (label_at hu hat2.head)
  have hb' : b ≤ s.top := by omega
  exact hT ((((label_step hat.head s).append (t2 h)).append (label_step hat2.head t)).append
    (sim_line hat2.tail.left t)) (ih _ _ _ _ t bb cc hok.1 (pre_left hro) hat2.tail.left (t1.in_ hi hb')
    (t1.good hi hb' hh) (t1.even he) (by rw [t1.top]; exact hb') (t1.free hf2))

theorem long_moreNo (hu : Uniq p) {T : Nat × VM → Prop} (hT : Back lib addr p T) {q : Const} {qs : List Const} {st : S .stmt} {cs : S .cases}
    {v : Val} {σ : State} (h : ¬ ∃ c ∈ q :: qs, c.is v)
    (ih : LongSim lib p g Γ b ro wr cn T (.cases v cs) σ) :
    LongSim lib p g Γ b ro wr cn T (.cases v (.more q qs st cs)) σ := by
  intro m l c k s bb cc ty hok hro hlab hty hr hat hi hh he hb hv hf
  have hf1 : Free s 2 := hf.mono (by omega)
  have hf2 : Free s (max 2 (cs.need cn)) := hf.mono (by simp only [S.need]; omega)
  simp only [codeS] at hat
  have hat2 := hat.tail.right
  obtain ⟨t, t1, _, t2⟩ := consts_steps (lib := lib) (addr := addr) hty hr qs q _ s hlab.1 hv hf1
    hat.tail.left (label_at hu hat2.head)
  have hb' : b ≤ s.top := by omega
  have hat3 := hat2.tail.right.tail
  have hthis : p[k + 1 + (codeK (l + 2) (l + 1) q qs).length + 1 +
      (codeS g st (m - ((constToks q qs).length + 1)) (l + 2) c).length + 1]? =
      some (labI (l + 1)) := by
    obtain ⟨r, hr⟩ := codeS_this g cs (m - ((constToks q qs).length + st.toks.length + 2))
      (l + 2 + st.nlab) { c with this := l + 1, ro := c.ro ++ st.ro g.pad }
    rw [hr] at hat3
    exact hat3.head
  exact hT ((label_step hat.head s).append (t2 h _ (label_at hu hthis)))
    (ih _ _ _ _ t bb cc ty hok.2 (pre_right hro) hlab.2 hty hr hat3 (t1.in_ hi hb') (t1.good hi hb' hh) (t1.even he)
    (by rw [t1.top]; exact hb) (by rw [t1.top, t1.mem _ (Nat.le_refl _)]; exact hv) (t1.free hf2))

theorem long_otherwise {T : Nat × VM → Prop} (hT : Back lib addr p T) {st : S .stmt} {semi : Bool} {v : Val} {σ : State}
    (ih : LongSim lib p g Γ b ro wr cn T (.stmt st) σ) :
    LongSim lib p g Γ b ro wr cn T (.cases v (.otherwise st semi)) σ := by
  intro m l c k s bb cc ty hok hro _ _ _ hat hi hh he hb _ hf
  simp only [codeS] at hat
  have hat2 := hat.tail
  exact hT ((label_step hat.head s).append (sim_line hat2 s))
    (ih _ _ _ _ s bb cc hok hro hat2 hi hh he (by omega) (hf.mono (by simp only [S.need]; omega)))

theorem long_loopBody (hΓ : Γ.Ok) (hg : g.level = Γ.level) {T : Nat × VM → Prop} (hT : Back lib addr p T) {x : Variable} {t : IntTy}
    {down : Bool} {i hi : Int} {st : S .stmt} {σ : State} (h : goesOn down i hi)
    (ih : LongSim lib p g Γ b ro wr cn T (.stmt st) σ) :
    LongSim lib p g Γ b ro wr cn T (.loop x t down i hi st) σ := by
  intro m l k r s hy hty ht hok hro hat hi' hh he hb hv hσ hc hf
  obtain ⟨u, h1, h2, _⟩ := loop_head (lib := lib) (addr := addr) hΓ hg hy hty ht hat hi' hh hb hv hσ
    hc (hf.mono (by omega))
  simp only [loopCode] at hat
  have hat3 := hat.tail.tail.tail.tail.left
  have hb' : b ≤ s.top := by omega
  exact hT ((h2 h).append (sim_line hat3 u)) (ih _ _ _ _ u true true hok hro hat3 (h1.in_ hi' hb')
    (h1.good hi' hb' hh) (h1.even he) (by rw [h1.top]; exact hb') (h1.free (hf.mono (by omega))))

theorem long_loopNext (hΓ : Γ.Ok) (hg : g.level = Γ.level) (hu : Uniq p) {T : Nat × VM → Prop} (hT : Back lib addr p T) {x : Variable} {t : IntTy}
    {down : Bool} {i hi : Int} {st : S .stmt} {σ τ : State} {o : Outcome} (h : goesOn down i hi)
    (hτ : τ.store x = some (.num t (wrap t i)))
    (ih : Sim lib addr p g Γ ro b wr cn (.stmt st) σ o τ) (ho : o ≠ .break_)
    (ih' : LongSim lib p g Γ b ro wr cn T (.loop x t down (after1 down i) hi st)
      (τ.set x (.num t (wrap t (after1 down i))))) :
    LongSim lib p g Γ b ro wr cn (OneMore lib addr p T) (.loop x t down i hi st) σ := by
  intro m l k r s hy hty ht hok hro hat0 hi' hh he hb hv hσ hc hf
  obtain ⟨u, h1, h2, _⟩ := loop_head (lib := lib) (addr := addr) hΓ hg hy hty ht hat0 hi' hh hb hv hσ
    hc (hf.mono (by omega))
  have hat := hat0
  simp only [loopCode, hg] at hat
  have hat2 := hat.tail.tail.tail.tail.right
  have hat3 := hat.tail.tail.tail.tail.left
  have hb' : b ≤ s.top := by omega
  have h3 := ih _ _ _ _ u true true hok hro hat3 (h1.in_ hi' hb') (h1.good hi' hb' hh) (h1.even he)
    (by rw [h1.top]; exact hb') (h1.free (hf.mono (by omega)))
  have h4 := h3.skip (sim_line hat3 u)
  have h5 : Goes lib addr p Γ ro b wr (k + 1 + 1 + 1 + 1, u) (k + 1 + 1 + 1 + 1 +
      (codeS g st m (l + 3) ⟨l + 3, l + 2, 0, 0, 0, r⟩).length) 0#16 τ := by
    cases o with
    | normal => exact h4
    | break_ => exact absurd rfl ho
    | continue_ => exact h4 _ (label_at hu hat2.head)
  obtain ⟨v, v1, v2, v3, v4⟩ := h5.pre0 (h2 h) (h1.keeps Γ wr) h1.sp
  have v3 : v.sp = s.sp := by rw [v3]; simp
  have v2 : Γ.Keeps wr s v := v2
  obtain ⟨w, w1, w2, w3, w4⟩ := loop_tail (lib := lib) (addr := addr) hΓ (down := down) hy hty ht hat2
    (v2.in_ hi' hb') v4 (by rw [keeps_top v3]; exact hb') hτ (v2.free v3 (hf.mono (by omega)))
  have w3 : w.sp = s.sp := by rw [w3]; simp [v3]
  have w2 : Γ.Keeps wr v w := w2
  have hk := v2.trans w2 (by rw [keeps_top v3]; exact Nat.le_refl _)
  have hL := ih' m l k r w hy hty ht hok hro hat0 (hk.in_ hi' hb') w4 (by rw [w3]; exact he)
    (by rw [keeps_top w3]; exact hb)
    (by rw [keeps_top w3, hk.above hi' hΓ (Nat.le_refl _) hb]; exact hv)
    (by simp [State.set, Store.set]) (counts_next hc h) (hk.free w3 hf)
  have hj := jmp_step (lib := lib) (addr := addr) hat2.tail.tail.tail.tail.head (label_at hu hat.head) w
  refine oneMore_pre hT (v1.append w1) ?_
  cases hj with
  | step h1 h2 => exact ⟨_, h1, hT h2 hL⟩

theorem long_for (hΓ : Γ.Ok) (hg : g.level = Γ.level) {T : Nat × VM → Prop} (hT : Back lib addr p T) {x : Variable} {down : Bool}
    {a c : E .expr} {st : S .stmt} {σ : State} {t : IntTy} {i hi : Int}
    (h1 : a.eval σ.store (.a x.ty) = some (.num t i)) (h2 : c.eval σ.store (.a x.ty) = some (.num t hi))
    (h3 : Countable t down i hi)
    (ih : LongSim lib p g Γ b ro wr cn T (.loop x t down i hi st) (σ.set x (.num t i))) :
    LongSim lib p g Γ b ro wr cn T (.stmt (.for_ x down a c st)) σ := by
  intro m l x' k s bb cc hok hro hat hi' hh he hb hf
  obtain ⟨o1, o2, o3, o4, o5, o7⟩ := hok
  obtain ⟨hf1, hf2⟩ := free_max hf
  obtain ⟨hf1, hf1'⟩ := free_max hf1
  have hat' : At p k (lineI g m :: (code Γ.level (.a x.ty) a ++ (ref Γ.level .sts x ::
      (code Γ.level (.a x.ty) c ++
      loopCode g x down st (m - (a.toks.length + c.toks.length + 5)) l x'.ro)))) := by
    rw [← hg]; exact hat
  have hst : Op.sts = stO x.ty := by rcases o2 with o2 | o2 <;> rw [o2] <;> rfl
  obtain ⟨r1, r2, u, u1, u2, u3, u4⟩ := assign_steps (lib := lib) (addr := addr) hΓ o1 o3 h1 hi' hh.has.holds hb
    hf1 hst hat'.tail
  have hxt : x.ty = .num t := r2.symm
  have ht : t = .integer ∨ t = .word := by
    rcases o2 with o2 | o2 <;> rw [hxt] at o2 <;> cases o2
    · exact .inl rfl
    · exact .inr rfl
  rw [loop_trim ht] at u4
  have h2' : c.eval (σ.store.set x (.num t i)) (.a x.ty) = some (.num t hi) := by rw [eval_set _ _ _ _ o5, h2]
  have hbu : b ≤ u.top := by rw [keeps_top u3]; exact hb
  have hiu := u2.in_ hi' hb
  have hatc := hat'.tail.right.tail
  obtain ⟨v, v1, v2, v3, v4⟩ := runs lib hΓ c _ _ _ u o4.2 h2' o4.1 hiu u4 hbu (u2.free u3 hf1')
  have hf1u : Free u 1 := (u2.free u3 hf1').mono (toks_pos c)
  have htop := v2.top hf1u
  have hsame := v2.same hbu
  exact hT (u1.append (v1.steps hatc.left)) (ih _ _ _ _ v o1 hxt ht o7 hro hatc.right (hsame.in_ hiu)
    ((hh.of_keeps (S := σ.store.set x (.num t i)) hb u2 u4).of_keeps hbu (v2.keeps Γ false) (hsame.holds hiu u4))
    (by rw [v2.sp, u3]; exact even_add 1 he)
    (by omega) (by rw [htop]; exact v2.value) (by simp [State.set, Store.set]; exact r1.symm)
    (countable_counts ht r1 v3 h3)
    (v2.free ((u2.free u3 hf2).mono (by omega))))

theorem long_call {N : Endless} (hΓ : Γ.Ok) (hg : g.level = Γ.level) {T : Nat × VM → Prop} (hT : Back lib addr p T)
    (hN : CallsLong lib p Γ b ro wr cn T N)
    {q : Proc} {args : List (E .expr)} {σ : State} {vs : List Val}
    (h1 : argVals σ.store q.parms args = some vs) (h2 : N q vs σ) :
    LongSim lib p g Γ b ro wr cn T (.stmt (.call q args)) σ := by
  intro m l c k s bb cc hok hro hat hi hh he hb hf
  obtain ⟨hpq, hargs⟩ := hok
  simp only [codeS, hg] at hat
  obtain ⟨t, us, r1, r2, r3, r4, r5, r6, r7, r8, r9⟩ := args_runs lib hΓ q.parms args vs s hargs h1 hi
    hh.has.holds hb hf
  subst r2
  have hsame : Same b s t := ⟨by rw [r5], by rw [r5], by rw [r5], fun j hj => r7 j (by omega), by rw [r5]⟩
  have hk : Γ.Keeps false s t := keeps_of_regs r5 (fun a ha _ => by unfold byte; rw [r7 _ ha]) _
  have hat2 := hat.tail.right
  exact hT (r1.steps (addr := addr) hat.tail.left) (hN q us σ _ t hpq h2 r3 r4 hat2.head (hsame.in_ hi)
    (hh.of_keeps hb hk (hsame.holds hi hh.has.holds)) (by rw [r5]; exact even_add _ he) (by omega) (by
      intro i v hv
      have := r6 i v hv
      rw [← this]; congr 1; omega) r8)

theorem LongSim.mono {T T' : Nat × VM → Prop} (h : ∀ c, T c → T' c) {c : Cmd} {σ : State}
    (hs : LongSim lib p g Γ b ro wr cn T c σ) : LongSim lib p g Γ b ro wr cn T' c σ := by
  cases c
  · exact fun a b c d e f g h1 h2 h3 h4 h5 h6 h7 h8 => h _ (hs a b c d e f g h1 h2 h3 h4 h5 h6 h7 h8)
  · exact fun a b c d e f g h1 h2 h3 h4 h5 h6 h7 h8 => h _ (hs a b c d e f g h1 h2 h3 h4 h5 h6 h7 h8)
  · exact fun a b c d e f g i h1 h2 h3 h4 h5 h6 h7 h8 h9 h10 h11 h12 =>
      h _ (hs a b c d e f g i h1 h2 h3 h4 h5 h6 h7 h8 h9 h10 h11 h12)
  · exact fun a b c d e h1 h2 h3 h4 h5 h6 h7 h8 h9 h10 h11 h12 h13 h14 =>
      h _ (hs a b c d e h1 h2 h3 h4 h5 h6 h7 h8 h9 h10 h11 h12 h13 h14)

/-- If something comes to `X`, and `T` holds from the code of `X`, then it holds from its code. -/
theorem leads (lib : Lib) (addr : Nat → Word) (b : Nat) (ro : List Byte) (wr : Bool) (hΓ : Γ.Ok) (hg : g.level = Γ.level)
    (hu : Uniq p) {P : Effects} {N : Endless} {cn : Nat} (hP : CallsDo lib addr p Γ ro b wr cn P)
    {T T' : Nat × VM → Prop} (hT : Back lib addr p T) (hT' : Back lib addr p T')
    (hTT : ∀ c, OneMore lib addr p T' c → T c) (hN : CallsLong lib p Γ b ro wr cn T N)
    {X : Cmd → State → Prop} {c : Cmd} {σ : State} (hx : GoesOn P N X c σ)
    (ih : ∀ c' σ', c'.weight < c.weight → X c' σ' → LongSim lib p g Γ b ro wr cn T c' σ')
    (ihn : ∀ c' σ', X c' σ' → LongSim lib p g Γ b ro wr cn T' c' σ') :
    LongSim lib p g Γ b ro wr cn T c σ := by
  cases hx with
  | thenTrue h hx' => exact long_thenTrue hΓ hg hT h (ih _ _ (by simp only [Cmd.weight, S.weight]; omega) hx')
  | elseTrue h hx' => exact long_elseTrue hΓ hg hT h (ih _ _ (by simp only [Cmd.weight, S.weight]; omega) hx')
  | elseFalse h hx' => exact long_elseFalse hΓ hg hu hT h (ih _ _ (by simp only [Cmd.weight, S.weight]; omega) hx')
  | whileBody h hx' => exact long_whileBody hΓ hg hT h (ih _ _ (by simp only [Cmd.weight, S.weight]; omega) hx')
  | whileNext h he ho hx' => exact LongSim.mono hTT (long_whileNext hΓ hg hu hT' h (sim lib addr b ro wr hΓ hg hu hP he) ho (ihn _ _ hx'))
  | repeatBody hx' => exact long_repeatBody hT (ih _ _ (by simp only [Cmd.weight, S.weight]; omega) hx')
  | @repeatNext ls e σ o τ hex ho h hx' =>
    intro m l c k s bb cc hok
    have : o = .normal := by
      have := exec_ok (Γ := Γ) hex true false hok.1
      cases o with
      | normal => rfl
      | break_ => exact absurd rfl ho
      | continue_ => exact absurd (this.2 rfl) (by decide)
    subst this
    exact LongSim.mono hTT (long_repeatNext hΓ hg hu hT' h (sim lib addr b ro wr hΓ hg hu hP hex) (ihn _ _ hx')) m l c k s bb cc hok
  | for_ h1 h2 h3 hx' => exact long_for hΓ hg hT h1 h2 h3 (ih _ _ (by simp only [Cmd.weight, S.weight]; omega) hx')
  | loopBody h hx' => exact long_loopBody hΓ hg hT h (ih _ _ (by simp only [Cmd.weight, S.weight]; omega) hx')
  | loopNext h he ho hτ hx' =>
    exact LongSim.mono hTT (long_loopNext hΓ hg hu hT' h hτ (sim lib addr b ro wr hΓ hg hu hP he) ho (ihn _ _ hx'))
  | case_ h hx' => exact long_case hΓ hg hT h (ih _ _ (by simp only [Cmd.weight, S.weight]; omega) hx')
  | block hx' =>
    intro m l c k s bb cc hok hro hat hi hh he hb hf
    simp only [codeS] at hat
    exact ih _ _ (by simp only [Cmd.weight, S.weight]; omega) hx' _ _ _ _ s bb cc hok hro hat.tail hi hh he hb hf
  | call h1 h2 => exact long_call hΓ hg hT hN h1 h2
  | one hx' =>
    intro m l c k s bb cc hok hro hat hi hh he hb hf
    simp only [codeS] at hat
    exact hT (sim_line hat s) (ih _ _ (by simp only [Cmd.weight, S.weight]; omega) hx' _ _ _ _ s bb cc
      hok hro hat hi hh he hb hf)
  | consFirst hx' =>
    intro m l c k s bb cc hok hro hat hi hh he hb hf
    simp only [codeS] at hat
    exact hT (sim_line hat.left s) (ih _ _ (by simp only [Cmd.weight, S.weight]; omega) hx' _ _ _ _ s bb cc
      hok.1 (pre_left hro) hat.left hi hh he hb (free_max hf).1)
  | consNext hex hx' =>
    intro m l c k s bb cc hok hro hat hi hh he hb hf
    obtain ⟨hf1, hf2⟩ := free_max hf
    simp only [codeS] at hat
    obtain ⟨u, u1, hk, hsp, hhu⟩ := (sim lib addr b ro wr hΓ hg hu hP hex _ _ _ _ s bb cc hok.1 (pre_left hro)
      hat.left hi hh he hb hf1)
    have hsp : u.sp = s.sp := by rw [hsp]; simp
    have hk : Γ.Keeps wr s u := hk
    exact hT ((sim_line hat.left s).append u1) (ih _ _ (by simp only [Cmd.weight, S.weight]; omega) hx'
      _ _ _ _ u bb cc hok.2 (pre_right hro) hat.right (hk.in_ hi hb) hhu (by rw [hsp]; exact he)
      (by rw [keeps_top hsp]; exact hb) (hk.free hsp hf2))
  | lastYes h hx' => exact long_lastYes hu hT h (ih _ _ (by simp only [Cmd.weight, S.weight]; omega) hx')
  | moreYes h hx' => exact long_moreYes hu hT h (ih _ _ (by simp only [Cmd.weight, S.weight]; omega) hx')
  | moreNo h hx' => exact long_moreNo hu hT h (ih _ _ (by simp only [Cmd.weight, S.weight]; omega) hx')
  | otherwise hx' => exact long_otherwise hT (ih _ _ (by simp only [Cmd.weight, S.weight]; omega) hx')

/-- The code of something that goes on forever makes any number of steps. -/
theorem long (lib : Lib) (addr : Nat → Word) (b : Nat) (ro : List Byte) (wr : Bool) (hΓ : Γ.Ok) (hg : g.level = Γ.level)
    (hu : Uniq p) {P : Effects} {N : Endless} {cn : Nat} (hP : CallsDo lib addr p Γ ro b wr cn P)
    (hN : ∀ n, CallsLong lib p Γ b ro wr cn (Long lib addr p n) N) {X : Cmd → State → Prop}
    (hX : ∀ c σ, X c σ → GoesOn P N X c σ) (n : Nat) :
    ∀ c σ, X c σ → LongSim lib p g Γ b ro wr cn (Long lib addr p n) c σ := by
  induction n with
  | zero =>
    intro c σ _
    cases c
    · exact fun _ _ _ _ _ _ _ _ _ _ _ _ _ _ _ => trivial
    · exact fun _ _ _ _ _ _ _ _ _ _ _ _ _ _ _ => trivial
    · exact fun _ _ _ _ _ _ _ _ _ _ _ _ _ _ _ _ _ _ _ _ => trivial
    · exact fun _ _ _ _ _ _ _ _ _ _ _ _ _ _ _ _ _ _ _ => trivial
  | succ n ihn =>
    suffices H : ∀ w c σ, c.weight < w → X c σ → LongSim lib p g Γ b ro wr cn (Long lib addr p (n + 1)) c σ from
      fun c σ h => H (c.weight + 1) c σ (Nat.lt_succ_self _) h
    intro w
    induction w with
    | zero => exact fun c σ h => absurd h (Nat.not_lt_zero _)
    | succ w ih =>
      intro c σ hw hx
      exact leads (T := Long lib addr p (n + 1)) (T' := Long lib addr p n) lib addr b ro wr hΓ hg hu hP Long.pre Long.pre
        (fun _ h => h) (hN (n + 1)) (hX c σ hx)
        (fun c' σ' hw' hx' => ih c' σ' (by omega) hx') ihn

end

/-- Calls of procedures whose statements go on forever make any number of steps. -/
theorem calls_leads {lib : Lib} {addr : Nat → Word} {p : List OpType} {ro : List Byte} {wr : Bool} {D : Decls}
    {c : Nat → Nat} (hu : Uniq p) (hD : ∀ q decl, D q = some decl → decl.Ok D q)
    (hpl : ∀ q decl, D q = some decl → PlacedAt p ro q decl)
    (hadd : ∀ (k : Nat) i, p[k]? = some i → i.op = Op.pcal.toByte → addr (k + 1) = addr k + 4#16)
    (hc : D.Room c) {F : Nat → Nat × VM → Prop} (hF : ∀ n, Back lib addr p (F n)) {K : Nat → Endless}
    (hK0 : ∀ q vs σ, ¬ K 0 q vs σ)
    (hK : ∀ d q vs σ, K (d + 1) q vs σ → ∃ decl, D q = some decl ∧ ∀ (g : Cfg) (Γ : Env) (b : Nat), Γ.Ok →
      g.level = Γ.level → CallsDo lib addr p Γ ro b wr (c d) (Calls D d) →
      (∀ n, CallsLong lib p Γ b ro wr (c d) (F n) (K d)) →
      ∀ n, LongSim lib p g Γ b ro wr (c d) (F n) (.list decl.body) (σ.enter q vs)) :
    ∀ (d : Nat) (Γ : Env) (b : Nat), Γ.Ok → Sees D Γ.vars Γ.procs →
    ∀ n, CallsLong lib p Γ b ro wr (c d) (F n) (K d)
  | 0, _, _, _, _ => fun _ _ _ _ _ _ _ h => (hK0 _ _ _ h).elim
  | d + 1, Γ, b, hΓ, hS => by
    intro n q vs σ k s hq hP hty hr hpk hi hh he hb hp hf
    obtain ⟨decl, hd1, hbody⟩ := hK d q _ σ hP
    obtain ⟨decl', hd1', hv⟩ := hS q hq
    rw [hd1] at hd1'
    cases hd1'
    have hd := hD q decl hd1
    obtain ⟨g, k0, k1, lb, m, l, r, g1, p0, p1, pat, pro⟩ := hpl q decl hd1
    have hlen : vs.length = q.parms.length := by rw [← hty]; simp
    have hroom := hc d q decl hd1
    obtain ⟨hf1, hf2⟩ := hf
    have hqo := hΓ.procs q hq
    obtain ⟨q1, q2, q3, q4⟩ := hqo
    have hev := hd.size
    have hsp : s.sp.toNat = 2 * s.top := by unfold VM.top; omega
    generalize hT : s.top = T at *
    have htop : s.sp.toNat / 2 = T := hT
    -- the frame of the level of the declaration
    have hi0 : Γ.In { s with pc := addr k } b := hi.congr rfl rfl rfl rfl (fun _ _ _ => rfl)
    have hl1 := hΓ.level
    obtain ⟨f, f1, f2⟩ := findFrame_link (s := { s with pc := addr k }) (Q := Γ.Apart b)
      (fun j hj => by have := hj.1; have := hi.bound; show j < s.words; omega)
      (Γ.level - q.level) Γ.level searchFuel s.fp (by omega) (by unfold searchFuel; omega)
      (fun j hj => hi0.levels j (by omega))
    have e0 : Γ.level - (Γ.level - q.level) = (BitVec.ofNat 8 (q.level + 1)).toNat - 1 := by
      simp; omega
    rw [e0] at f2
    have hne : BitVec.ofNat 8 (q.level + 1) ≠ 0 := by
      intro h
      have := congrArg BitVec.toNat h
      simp at this
      omega
    have hcall := procedureCall_eq { s with pc := addr k } (BitVec.ofNat 8 (q.level + 1)) f hne f2
      (by show s.top + 5 < s.words; omega) (by show s.top + 5 < 32768; omega)
    have ea : (ins .pcal ((q.level + 1 : Nat) : Int) (q.label : Int)).arg1 = BitVec.ofNat 8 (q.level + 1) := by
      simp only [ins, show hasArg8 Op.pcal.toByte = true from rfl, if_true]
      exact BitVec.ofInt_natCast ..
    have ea2 : (ins .pcal ((q.level + 1 : Nat) : Int) (q.label : Int)).arg2 = BitVec.ofNat 16 q.label := by
      simp only [ins, show hasArg16 Op.pcal.toByte = true from rfl, if_true]
      exact BitVec.ofInt_natCast ..
    have hst : ({ s with pc := addr k } : VM).top = T := hT
    rw [hst] at hcall
    simp only at hcall
    generalize hm5 : updW (updW (updW (updW (updW s.mem (T + 1) f) (T + 2) s.fp) (T + 3)
        (addr k + 4#16)) (T + 4) s.csp) (T + 5)
        ((s.lsp <<< 8) ||| (BitVec.ofNat 8 (q.level + 1)).zeroExtend 16) = m5 at hcall
    have em : ∀ j, j ≤ T → m5 j = s.mem j := by
      intro j hj
      rw [← hm5]
      simp only [updW]
      repeat rw [if_neg (by omega)]
    have w1 : m5 (T + 1) = f := by rw [← hm5]; simp [updW]
    have w2 : m5 (T + 2) = s.fp := by rw [← hm5]; simp [updW]
    have w3 : m5 (T + 3) = addr k + 4#16 := by rw [← hm5]; simp [updW]
    have w4 : m5 (T + 4) = s.csp := by rw [← hm5]; simp [updW]
    have w5 : m5 (T + 5) = (s.lsp <<< 8) ||| (BitVec.ofNat 8 (q.level + 1)).zeroExtend 16 := by
      rw [← hm5]; simp [updW]
    generalize hs1 : ({ s with
        sp := s.sp + 10#16
        fp := s.sp + 2#16
        lsp := (BitVec.ofNat 8 (q.level + 1)).zeroExtend 16
        mem := m5 } : VM) = s1
    have st1 : PSteps lib addr p (k, s) (k0, s1) := by
      have hx : pexec32 lib { s with pc := addr k } (some .pcal)
          (ins .pcal ((q.level + 1 : Nat) : Int) (q.label : Int)).arg1 (addr k0) = .ok (eNOERROR,
            { s1 with pc := addr k0 }) := by
        rw [ea]
        simp only [pexec32, hcall, Res.ok_bind]
        rw [← hs1]
      have := PStep.call (lib := lib) (addr := addr) (s := s) hpk rfl (by rw [ea2]; exact label_at hu p0) hx
      have e : ({ ({ s1 with pc := addr k0 } : VM) with pc := s.pc } : VM) = s1 := by rw [← hs1]
      rw [e] at this
      exact one_step this
    have st2 : PSteps lib addr p (k, s) (k1 + 1, s1) := by
      refine (st1.append (label_step p0 s1)).append ?_
      have hb := label_step (lib := lib) (addr := addr) pat.head s1
      rcases p1 with rfl | p1
      · exact hb
      · exact (jmp_step p1 (label_at hu pat.head) s1).append hb
    have hat := pat.tail
    have st3 := st2.append ((space_runs (lib := lib) s1 decl.size).steps (addr := addr) hat.left)
    generalize hs2 : ({ s1 with sp := s1.sp + BitVec.ofInt 16 decl.size } : VM) = s2 at st3
    have sp2 : s2.sp.toNat = 2 * T + 10 + decl.size := by
      rw [← hs2, ← hs1, BitVec.ofInt_natCast]
      simp only [BitVec.toNat_add, BitVec.toNat_ofNat]
      omega
    have top2 : s2.top = T + 5 + decl.size / 2 := by unfold VM.top; omega
    have mem2 : s2.mem = m5 := by rw [← hs2, ← hs1]
    have io2 : s2.io = s.io := by rw [← hs2, ← hs1]
    have wd2 : s2.words = s.words := by rw [← hs2, ← hs1]
    have hΓ' : (calleeEnv Γ q decl (2 * T + 2)).Ok :=
      callee_ok hΓ ⟨q1, q2, q3, q4⟩ hd hv hi.inside (by omega) (by omega)
    have hi' : (calleeEnv Γ q decl (2 * T + 2)).In s2 (T + 5 + decl.size / 2) := by
      refine callee_in hΓ hd ⟨q1, q2, q3, q4⟩ hv hi0 (by omega) (by show _ < s.words; omega) hf2 f1
        (by rw [wd2]) (by rw [← hs2, ← hs1]) ?_ ?_ ?_ ?_ ?_
      · rw [← hs2, ← hs1]
        simp only [BitVec.toNat_add, BitVec.toNat_ofNat]
        omega
      · rw [← hs2, ← hs1]
        simp only [BitVec.zeroExtend, BitVec.toNat_setWidth, BitVec.toNat_ofNat]
        omega
      · intro j hj; rw [mem2]; exact em j hj
      · rw [mem2]; exact w1
      · rw [mem2, w5]; exact levelWord_low _ _ (by omega)
    have hh' : Good lib (calleeEnv Γ q decl (2 * T + 2)) ro (T + 5 + decl.size / 2) wr s2
        (σ.enter q (vs.map Val.trim)) := by
      refine ⟨⟨callee_holds hΓ hd hv hi (by omega) hh.has.holds hty hr hp ?_, fun text ht => ?_,
        fun i hin => ?_⟩, hh.quiet⟩
      · intro j hj; rw [mem2]; exact em j hj
      · exact callee_output hd hv (by omega) (hh.has.output text ht) (fun j hj => by rw [mem2]; exact em j hj)
          io2 (by rw [← hs2, ← hs1]) (by rw [← hs2, ← hs1]) (by omega)
      · exact callee_input hd hv (by omega) (hh.has.input i hin) (fun j hj => by rw [mem2]; exact em j hj)
          io2 (by rw [← hs2, ← hs1]) (by omega)
    exact hF n st3 (hbody g (calleeEnv Γ q decl (2 * T + 2)) (T + 5 + decl.size / 2) hΓ' g1
      (calls_ok hu hD hpl hadd hc d _ _ hΓ' hd.sees) (calls_leads hu hD hpl hadd hc hF hK0 hK d _ _ hΓ' hd.sees) n
      m l _ _ s2 false false hd.body pro hat.right.left hi' hh' (by omega) (by omega) ⟨by omega, by omega⟩)

/-- Calls of procedures whose statements go on forever make any number of steps. -/
theorem calls_long {lib : Lib} {addr : Nat → Word} {p : List OpType} {ro : List Byte} {wr : Bool} {D : Decls}
    {c : Nat → Nat} (hu : Uniq p) (hD : ∀ q decl, D q = some decl → decl.Ok D q)
    (hpl : ∀ q decl, D q = some decl → PlacedAt p ro q decl)
    (hadd : ∀ (k : Nat) i, p[k]? = some i → i.op = Op.pcal.toByte → addr (k + 1) = addr k + 4#16)
    (hc : D.Room c) (d : Nat) (Γ : Env) (b : Nat) (hΓ : Γ.Ok) (hS : Sees D Γ.vars Γ.procs) (n : Nat) :
    CallsLong lib p Γ b ro wr (c d) (Long lib addr p n) (CallsForever D d) := by
  refine calls_leads hu hD hpl hadd hc (F := Long lib addr p) (fun n => Long.pre) (K := CallsForever D)
    (fun _ _ _ h => h) (fun d q vs σ h => ?_) d Γ b hΓ hS n
  obtain ⟨decl, hd, X, hx, hX⟩ := h
  exact ⟨decl, hd, fun g Γ b hΓ hg hP hN n => long lib addr b ro wr hΓ hg hu hP hN hX n _ _ hx⟩

/-! ### What is written -/

/-- From here the text can be written. -/
def Shows (lib : Lib) (addr : Nat → Word) (p : List OpType) (text : List Byte) (c : Nat × VM) : Prop :=
  ∃ c', PSteps lib addr p c c' ∧ fileText c'.2 .stdout = text

theorem shows_back {lib : Lib} {addr : Nat → Word} {p : List OpType} {text : List Byte} :
    Back lib addr p (Shows lib addr p text) := fun h ⟨c', h1, h2⟩ => ⟨c', h.append h1, h2⟩

/-- The code of something that writes a text comes to a state in which this is the standard output. -/
theorem shows (lib : Lib) (addr : Nat → Word) (b : Nat) (ro : List Byte) (wr : Bool) {p : List OpType} {g : Cfg}
    {Γ : Env} (hΓ : Γ.Ok) (hg : g.level = Γ.level)
    (hu : Uniq p) {P : Effects} {W : Endless} {cn : Nat} (hP : CallsDo lib addr p Γ ro b wr cn P) {text : List Byte}
    (hN : CallsLong lib p Γ b ro wr cn (Shows lib addr p text) W) (n : Nat) :
    ∀ c σ, WritesIn P W text n c σ → LongSim lib p g Γ b ro wr cn (Shows lib addr p text) c σ := by
  have here : ∀ c σ, σ.out = some text → LongSim lib p g Γ b ro wr cn (Shows lib addr p text) c σ := by
    intro c σ h
    cases c
    · exact fun _ _ _ _ _ _ _ _ _ _ _ hh _ _ _ => ⟨_, .refl _, (hh.has.output text h).text⟩
    · exact fun _ _ _ _ _ _ _ _ _ _ _ hh _ _ _ => ⟨_, .refl _, (hh.has.output text h).text⟩
    · exact fun _ _ _ _ _ _ _ _ _ _ _ _ _ _ _ hh _ _ _ _ => ⟨_, .refl _, (hh.has.output text h).text⟩
    · exact fun _ _ _ _ _ _ _ _ _ _ _ _ hh _ _ _ _ _ _ => ⟨_, .refl _, (hh.has.output text h).text⟩
  induction n with
  | zero => exact here
  | succ n ih =>
    intro c σ h
    rcases h with h | h
    · exact here c σ h
    · exact leads lib addr b ro wr hΓ hg hu hP shows_back shows_back
        (fun _ ⟨c', h1, c'', h2, h3⟩ => ⟨c'', .step h1 h2, h3⟩) hN h (fun c' σ' _ => ih c' σ') ih

/-- Calls of procedures whose statements write a text. -/
theorem calls_show {lib : Lib} {addr : Nat → Word} {p : List OpType} {ro : List Byte} {wr : Bool} {D : Decls}
    {c : Nat → Nat} (hu : Uniq p) (hD : ∀ q decl, D q = some decl → decl.Ok D q)
    (hpl : ∀ q decl, D q = some decl → PlacedAt p ro q decl)
    (hadd : ∀ (k : Nat) i, p[k]? = some i → i.op = Op.pcal.toByte → addr (k + 1) = addr k + 4#16)
    (hc : D.Room c) (text : List Byte) (d : Nat) (Γ : Env) (b : Nat) (hΓ : Γ.Ok) (hS : Sees D Γ.vars Γ.procs) :
    CallsLong lib p Γ b ro wr (c d) (Shows lib addr p text) (CallsWrite D text d) := by
  refine calls_leads hu hD hpl hadd hc (F := fun _ => Shows lib addr p text) (fun n => shows_back)
    (K := CallsWrite D text) (fun _ _ _ h => h) (fun d q vs σ h => ?_) d Γ b hΓ hS 0
  obtain ⟨decl, n, hd, hx⟩ := h
  exact ⟨decl, hd, fun g Γ b hΓ hg hP hN _ => shows lib addr b ro wr hΓ hg hu hP (hN 0) n _ _ hx⟩

/-! ### On the machine -/

/-- A program with labels that can make any number of steps makes any number of steps on the machine: between
two steps of the machine there are at most as many marks as the program has instructions. -/
theorem long_machine {lib : Lib} (hl : lib.NoPc) {p q : List OpType} {syms : List Sym}
    (hq : Pointwise (Resolved p syms) (realOps p) q) (post : List Byte) (maxpc : Word)
    (hmax : (encode q).length ≤ maxpc.toNat) : ∀ (N n : Nat) (c : Nat × VM), Long lib (place p) p N c →
    n * (p.length + 1) + (p.length - c.1) ≤ N →
    ∃ t, runFor lib (encode q ++ post) maxpc n { c.2 with pc := place p c.1 } = .ok (eNOERROR, t)
  | _, 0, _, _, _ => ⟨_, rfl⟩
  | 0, n + 1, _, _, h => by rw [Nat.succ_mul] at h; omega
  | N + 1, n + 1, c, ⟨c', h1, h2⟩, h => by
    obtain ⟨m, hm, hm0, hr⟩ := lstep_machine hl hq post maxpc hmax h1
    rcases Nat.lt_or_ge m 1 with h0 | h0
    · obtain ⟨e1, e2⟩ := hm0 (by omega)
      have e : m = 0 := by omega
      subst e
      obtain ⟨t, ht⟩ := long_machine hl hq post maxpc hmax N (n + 1) c' h2 (by omega)
      refine ⟨t, ?_⟩
      injection hr with hr
      injection hr with _ hr
      rw [hr]
      exact ht
    · have e : m = 1 := by omega
      subst e
      obtain ⟨t, ht⟩ := long_machine hl hq post maxpc hmax N n c' h2 (by rw [Nat.succ_mul] at h; omega)
      refine ⟨t, ?_⟩
      rw [Nat.add_comm, runFor_add _ _ _ _ _ _ _ hr, ht]

end Pas.Src
