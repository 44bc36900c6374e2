import Verif.Lemmas.Declare
import Verif.Lemmas.CompParse
import Verif.Lemmas.CompSim
import Verif.Lemmas.CompLabel
import Verif.Lemmas.CallRun

/-! The code generated for blocks, procedures and programs. -/
namespace Pas.Src
open Pas.Spec Pas.Comp

/-- Number of bytes reserved for the variables of a block. -/
def roomOf (lev : Nat) (gs : List Group) : Nat := (placedEnd (firstOffset lev) (orderOf gs) + 1) / 2 * 2

/-- Number of bytes reserved for the variables of the program. -/
def Source.room (P : Source) : Nat := (P.size + 1) / 2 * 2

/-- No loop around, nothing on the stack. -/
def top0 (ro : List Byte) : Ctx := ⟨0, 0, 0, 0, 0, ro⟩

/-- The initial values of INPUT and OUTPUT. -/
def initial : List OpType := [ins .push 0 0, ins .st 0 0, ins .push 0 1, ins .st 0 2]

/-- The string constants of blocks and procedures. -/
def Dcl.ro (pad : Byte) : {k : DK} → Dcl k → List Byte
  | _, .blk _ _ ps _ st => ps.ro pad ++ st.ro pad
  | _, .nil => []
  | _, .cons _ _ b rest => b.ro pad ++ rest.ro pad

/-- The jump over the procedures of a procedure. -/
def jumpOver (lev l : Nat) : Dcl .procs → List OpType
  | .nil => []
  | .cons .. => if 0 < lev then [ins .jmp 0 (l : Int)] else []

/-- The code of the statements of a block. -/
def codeB (g : Cfg) (lb room : Nat) (st : S .list) (m l : Nat) (ro : List Byte) : List OpType :=
  labI lb :: (space room ++ ((if g.level = 0 then initial else []) ++
    (codeS g st m l (top0 ro) ++ space (-(room : Int)))))

/-- The code of blocks and procedures, when `l` labels have been used, the read-only data is `ro` and `r` tokens
follow. -/
def Dcl.code (line : Nat → Byte × Word) (pad : Byte) : {k : DK} → Dcl k → (lev l : Nat) → (ro : List Byte) →
    (r : Nat) → List OpType
  | _, .blk ks gs ps body st, lev, l, ro, r =>
    jumpOver lev (l + 1) ps ++ (ps.code line pad lev (l + 1) ro (body.length + 2 + r) ++
      codeB ⟨lev, line, pad⟩ (l + 1) (roomOf lev gs) st (st.toks.length + 1 + r) (l + 1 + ps.labels) (ro ++ ps.ro pad))
  | _, .nil, _, _, _, _ => []
  | _, .cons _ _ b rest, lev, l, ro, r =>
    labI (l + 1) :: (b.code line pad (lev + 1) (l + 1) ro (1 + rest.toks.length + r) ++
      ins .ret 0 0 :: rest.code line pad lev (l + 1 + b.labels) (ro ++ b.ro pad) r)

/-- Everything in the scope can be used at the level. -/
structure ScopeOk (lev : Nat) (sc : Scope) : Prop where
  vars : ∀ x, Scope.vars sc x → Usable lev x
  procs : ∀ q, Scope.procs sc q → q.Ok lev

theorem Usable.next {lev : Nat} {x : Variable} (h : Usable lev x) (hl : lev ≤ 254) : Usable (lev + 1) x :=
  ⟨by omega, by have := h.outer; omega, h.offset0, h.offset⟩

theorem ScopeOk.next {lev : Nat} {sc : Scope} (h : ScopeOk lev sc) (hl : lev ≤ 254) : ScopeOk (lev + 1) sc :=
  ⟨fun x hx => (h.vars x hx).next hl, fun q hq => ⟨by have := (h.procs q hq).1; omega, (h.procs q hq).2⟩⟩

theorem ScopeOk.append {lev : Nat} {a b : Scope} (ha : ScopeOk lev a) (hb : ScopeOk lev b) : ScopeOk lev (a ++ b) := by
  constructor
  · rintro x ⟨e, he, hx⟩
    rcases List.mem_append.1 he with h | h
    · exact ha.vars x ⟨e, h, hx⟩
    · exact hb.vars x ⟨e, h, hx⟩
  · rintro x ⟨n, hn⟩
    rcases List.mem_append.1 hn with h | h
    · exact ha.procs x ⟨n, h⟩
    · exact hb.procs x ⟨n, h⟩

theorem placed_proc {lev d : Nat} {o : List (List Byte × Shape)} {n : List Byte} {q : Proc}
    (h : (n, Ent.proc q) ∈ placed lev d o) : False := by
  obtain ⟨m, t, p, -, h1, -⟩ := placed_ent _ _ _ h
  injection h1 with _ h1
  obtain ⟨ty, r⟩ := t
  cases r <;> cases h1

theorem cst_vars {ks : List Cst} {x : Variable} (h : Scope.vars (cstScope ks) x) : False := by
  obtain ⟨e, he, hx⟩ := h
  obtain ⟨c, _, rfl⟩ := List.mem_map.1 he
  cases hx

theorem cst_procs {ks : List Cst} {q : Proc} (h : Scope.procs (cstScope ks) q) : False := by
  obtain ⟨n, hn⟩ := h
  obtain ⟨c, _, hc⟩ := List.mem_map.1 hn
  cases hc

theorem scopeOk_locals {lev : Nat} (hl : lev ≤ 255) {ks : List Cst} {gs : List Group}
    (h : placedEnd (firstOffset lev) (orderOf gs) ≤ 32768) : ScopeOk lev (locals lev ks gs) := by
  refine ScopeOk.append ⟨fun x hx => (cst_vars hx).elim, fun q hq => (cst_procs hq).elim⟩ ?_
  constructor
  · intro x hx
    obtain ⟨h5, h6, h7, _⟩ := placed_inside _ _ _ hx
    have : 0 < x.ty.size := by rcases byteSize_cases x.ty with h | h <;> omega
    exact ⟨hl, by omega, fun _ => by omega, fun _ => by omega⟩
  · rintro q ⟨n, hn⟩
    exact (placed_proc hn).elim

theorem locals_names (lev : Nat) (ks : List Cst) (gs : List Group) :
    (locals lev ks gs).map (·.1) = ks.map (·.name) ++ (orderOf gs).map (·.1) := by
  unfold locals
  rw [List.map_append, placed_names, cstScope, List.map_map]
  rfl

theorem mem_parmScope {lev : Nat} {gs : List Group} {n : List Byte} {e : Ent} (h : (n, e) ∈ parmScope lev gs) :
    ∃ x, e = .var x ∧ x ∈ parmVars lev (parmTypes gs) := by
  have := (List.of_mem_zip h).2
  obtain ⟨x, hx, rfl⟩ := List.mem_map.1 this
  exact ⟨x, rfl, hx⟩

theorem scopeOk_parms {lev : Nat} (hl : lev ≤ 255) (h0 : 0 < lev) {gs : List Group} (h : (parmTypes gs).length ≤ 16384) :
    ScopeOk lev (parmScope lev gs) := by
  constructor
  · rintro x ⟨⟨n, e⟩, hn, hx⟩
    obtain ⟨y, rfl, hm⟩ := mem_parmScope hn
    obtain rfl : x = y := by simpa [Ent.vars] using hx
    obtain ⟨i, h1, h2, h3, h4⟩ := parmVars_mem hm
    exact ⟨hl, by omega, fun h => by omega, fun _ => by omega⟩
  · rintro q ⟨n, hn⟩
    obtain ⟨y, hy, hm⟩ := mem_parmScope hn
    cases hy

theorem scopeOk_head {lev l : Nat} (hl : lev ≤ 254) (hlab : l ≤ 65535) {ts : List Ty} (h : ts.length ≤ 16384) (n : List Byte) :
    ScopeOk lev [(n, .proc ⟨lev, l, ts⟩)] := by
  constructor
  · rintro x ⟨e, he, hx⟩
    simp only [List.mem_singleton] at he
    subst he
    cases hx
  · rintro q ⟨n, hn⟩
    simp only [List.mem_singleton, Prod.mk.injEq, Ent.proc.injEq] at hn
    obtain ⟨_, rfl⟩ := hn
    exact ⟨Nat.le_refl _, hl, hlab, h⟩

/-! ### The compiler generates this code -/

/-- The state of the code generator: `l` labels have been used. -/
def cs (l : Nat) (ro : List Byte) (toks : List Tk) (out : List OpType) : CS :=
  after ⟨[], [], 0, BitVec.ofNat 16 l, 0, 0, 0, ro⟩ toks out

theorem newLabel_cs (l : Nat) (ro : List Byte) (toks : List Tk) (out : List OpType) :
    newLabel (cs l ro toks out) = (BitVec.ofNat 16 (l + 1), cs (l + 1) ro toks out) := by
  have : BitVec.ofNat 16 l + 1#16 = BitVec.ofNat 16 (l + 1) := by
    rw [← BitVec.ofNat_add]
  simp only [newLabel, cs, after, this]

theorem alignUp_zero (n : Nat) : alignUp n = 0 ↔ n = 0 := by unfold alignUp; omega

theorem space_after {n : Nat} (h : n ≤ 32768) (s : CS) (r : List Tk) (c : List OpType) :
    (if n ≠ 0 then genData .inds (alignUp n) (after s r c) else after s r c) = after s r (c ++ space (alignUp n : Nat)) := by
  by_cases h0 : n = 0
  · subst h0
    rw [if_neg (by simp)]
    simp [space, alignUp]
  · rw [if_pos h0, genData_after (by unfold alignUp; omega), space, if_neg (by have := alignUp_zero n; omega)]

theorem release_after {n : Nat} (h : n ≤ 32768) (s : CS) (r : List Tk) (c : List OpType) :
    (if n ≠ 0 then genData .inds (-(alignUp n : Int)) (after s r c) else after s r c) =
      after s r (c ++ space (-(alignUp n : Nat))) := by
  by_cases h0 : n = 0
  · subst h0
    rw [if_neg (by simp)]
    simp [space, alignUp]
  · rw [if_pos h0, genData_after (by unfold alignUp; omega), space, if_neg (by have := alignUp_zero n; omega)]

theorem blockStart_ok {lev lb : Nat} (hlb : lb ≤ 65535) {sc : Scope} {ds : Nat} (hds : ds ≤ 32768) (rest : List Lx)
    (l : Nat) (ro : List Byte) (out : List OpType) :
    blockStart lev (BitVec.ofNat 16 lb) (reading sc ds rest .begin_ none (.tk .begin_)) (cs l ro [] out) =
      cs l ro (.begin_ :: rest.map (Lx.tok (table sc) 0)) (out ++ labI lb :: (space (alignUp ds : Nat) ++
        if lev = 0 then initial else [])) := by
  unfold blockStart
  have e1 : ({ cs l ro [] out with toks := (reading sc ds rest .begin_ none (.tk .begin_)).body } : CS) =
    cs l ro (.begin_ :: rest.map (Lx.tok (table sc) 0)) out := rfl
  simp only [e1]
  rw [if_pos (show (reading sc ds rest .begin_ none (.tk .begin_)).tok = .begin_ from rfl)]
  unfold cs
  rw [lab_after hlb]
  have e2 := space_after (n := ds) hds ⟨[], [], 0, BitVec.ofNat 16 l, 0, 0, 0, ro⟩ (.begin_ :: rest.map (Lx.tok (table sc) 0)) (out ++ [labI lb])
  rw [show (reading sc ds rest .begin_ none (.tk .begin_)).dstack = ds from rfl, e2]
  by_cases h0 : lev = 0
  · rw [if_pos h0, if_pos h0]
    unfold initialization
    rw [genData_after (by omega), genData_after (by omega), genData_after (by omega),
      genData_after (by omega)]
    simp [initial]
  · rw [if_neg h0, if_neg h0]
    simp

theorem blockEnd_ok {lev lb : Nat} (line : Nat → Byte × Word) (pad : Byte) (hlb : lb ≤ 65535) {sc : Scope}
    (hnew : AllNew sc) (hsc : ScopeOk lev sc) {ds : Nat} (hds : ds ≤ 32768) {body : List Lx} {st : S .list}
    (hb : Pointwise (Spells sc) body st.toks) (hst : st.Ok (Scope.vars sc) (Scope.procs sc) false false)
    {l : Nat} (hl : l + st.nlab ≤ 65535) (hd : st.need 0 ≤ 16384) (x : Tk) (r : List Lx) (ro : List Byte)
    (out : List OpType) : ∃ N, ∀ n, N ≤ n →
    blockEnd ⟨lev, line, pad⟩ n (BitVec.ofNat 16 lb) (reading sc ds (body ++ .tk .end_ :: .tk x :: r) .begin_ none (.tk .begin_))
        (cs l ro [] out) =
      some (reading sc ds r x none (.tk x), cs (l + st.nlab) (ro ++ st.ro pad) []
        (out ++ codeB ⟨lev, line, pad⟩ lb (alignUp ds) st (st.toks.length + 1 + (r.length + 1)) l ro)) := by
  have htoks := body_toks hnew hb
  have hmap : (body ++ .tk .end_ :: .tk x :: r).map (Lx.tok (table sc) 0) =
      st.toks ++ .end_ :: x :: r.map (Lx.tok (table sc) 0) := by
    rw [List.map_append, htoks]; rfl
  obtain ⟨N, hN⟩ := parseS (g := ⟨lev, line, pad⟩) hsc.vars hsc.procs st ⟨[], [], 0, BitVec.ofNat 16 l, 0, 0, 0, ro⟩ l
    (st.toks.length + 1 + (r.length + 1)) (top0 ro) .begin_
    (.end_ :: x :: r.map (Lx.tok (table sc) 0)) (out ++ labI lb :: (space (alignUp ds : Nat) ++
        if lev = 0 then initial else [])) false false hst
    ⟨rfl, rfl, rfl, rfl, by simp [top0], by simp [top0], rfl⟩ ⟨by simp, by simp, hl, by simp [top0]; omega, by simp [top0]⟩
    ⟨_, _, rfl, by simp⟩ (by simp) (by simp) (by simp; omega)
  refine ⟨N + 1, fun n hn => ?_⟩
  obtain ⟨n, rfl⟩ : ∃ k, n = k + 1 := ⟨n - 1, by omega⟩
  unfold blockEnd
  rw [blockStart_ok hlb hds, hmap]
  unfold cs
  rw [compound, hN n (by omega)]
  simp only [Option.bind_eq_bind, Option.bind_some, expect_after, Option.pure_def]
  have e3 : (reading sc ds (body ++ .tk .end_ :: .tk x :: r) .begin_ none (.tk .begin_)).dstack = ds := rfl
  rw [e3, release_after hds]
  refine congrArg some (Prod.ext ?_ ?_)
  · simp only [DS.resume, after_toks, reading, List.length_append, List.length_cons, List.length_map]
    have hlen : body.length = st.toks.length := hb.1
    have e4 : (.tk .begin_ :: (body ++ .tk .end_ :: .tk x :: r)).drop (body.length + (r.length + 1 + 1) + 1 - (r.length + 1)) =
        .tk x :: r := by
      rw [show body.length + (r.length + 1 + 1) + 1 - (r.length + 1) = (.tk .begin_ :: (body ++ [.tk .end_])).length by
        simp; omega]
      rw [show (Lx.tk .begin_ :: (body ++ .tk .end_ :: .tk x :: r)) = (.tk .begin_ :: (body ++ [.tk .end_])) ++ (.tk x :: r) by simp]
      exact List.drop_left ..
    rw [e4]
    rfl
  · simp only [setL, after, codeB, List.append_assoc, List.cons_append, List.nil_append, top0]

theorem scopeOk_heads {lev : Nat} {outer : Scope} : ∀ (ps : Dcl .procs) {l : Nat} {own : Scope}, ps.Ok lev l outer own →
    l + ps.labels ≤ 65535 → ScopeOk lev (ps.heads lev l)
  | .nil, _, _, _, _ => ⟨fun x ⟨n, h⟩ => by simp [Dcl.heads] at h, fun x ⟨n, h⟩ => by simp [Dcl.heads] at h⟩
  | .cons name parms b rest, l, own, h, hl => by
    simp only [Dcl.Ok] at h
    simp only [Dcl.labels] at hl
    obtain ⟨⟨h1, h2, _, _⟩, _, _, h5⟩ := h
    have := scopeOk_heads rest h5 (by omega)
    exact ScopeOk.append (a := [_]) (scopeOk_head h1 (by omega) h2 name) this

theorem Dcl.Ok.own {lev l : Nat} {outer own : Scope} : {b : Dcl .blk} → b.Ok lev l outer own →
    (∀ e ∈ own, New e.1) ∧ own.Pairwise fun a b => ¬ SameName a.1 b.1
  | .blk ks gs ps body st, h => by
    simp only [Dcl.Ok] at h
    refine ⟨fun e he => h.1.new e (by simp [he]), ?_⟩
    have := h.1.different
    rw [List.append_assoc, List.pairwise_append] at this
    exact this.1

/-- The tokens of procedures and BEGIN. -/
theorem procs_goon (ps : Dcl .procs) (r : List Lx) : ∃ t r', ps.toks ++ .tk .begin_ :: r = .tk t :: r' ∧ Goon t := by
  cases ps with
  | nil => exact ⟨_, _, rfl, .inl rfl⟩
  | cons => exact ⟨_, _, rfl, .inr rfl⟩

/-- How the compiler reads blocks and procedures. -/
def Reads (line : Nat → Byte × Word) (pad : Byte) : {k : DK} → Dcl k → Prop
  | .blk, b => ∀ (lev l : Nat) (outer own : Scope) (ds : Nat) (r : List Lx) (ro : List Byte) (out : List OpType)
      (tok : Tk) (ptr : Option Comp.Sym) (last : Lx), b.Ok lev l outer own → AllNew (outer ++ own) →
      ScopeOk lev (outer ++ own) → 0 < lev → lev ≤ 255 → b.size lev ≤ 32767 → b.depth ≤ 16384 → l + b.labels ≤ 65535 →
      ∃ N, ∀ n, N ≤ n → block line pad n lev
          ((reading (outer ++ own) ds (b.toks ++ .tk .semi :: r) tok ptr last).get 0) (cs l ro [] out) =
        .ok (some (reading (outer ++ own) ds r .semi none (.tk .semi), cs (l + b.labels) (ro ++ b.ro pad) []
          (out ++ b.code line pad lev l ro (r.length + 1))))
  | .procs, ps => ∀ (lev l : Nat) (outer own base mid : Scope) (ds : Nat) (r : List Lx) (ro : List Byte) (out : List OpType)
      (tok : Tk) (ptr : Option Comp.Sym) (last : Lx) (lb : Nat) (first : Bool), ps.Ok lev l outer own → AllNew (outer ++ own) →
      ScopeOk lev (outer ++ own) → outer ++ own = base ++ mid → (∀ e ∈ ps.heads lev l, New e.1) →
      ((mid ++ ps.heads lev l).Pairwise fun a b => ¬ SameName a.1 b.1) → 0 < lb → lb ≤ 65535 → l + ps.labels ≤ 65535 →
      ∃ N, ∀ n, N ≤ n → procedures line pad n lev (table base).length (BitVec.ofNat 16 lb) first
          ((reading (outer ++ own) ds (ps.toks ++ .tk .begin_ :: r) tok ptr last).get 0) (cs l ro [] out) =
        .ok (some (reading (outer ++ own ++ ps.heads lev l) ds r .begin_ none (.tk .begin_),
          cs (l + ps.labels) (ro ++ ps.ro pad) []
            (out ++ ((if first = true then jumpOver lev lb ps else []) ++ ps.code line pad lev l ro (r.length + 1)))))

theorem procedures_end (line : Nat → Byte × Word) (pad : Byte) (n lev off : Nat) (label : Word) (first : Bool) {d : DS}
    (s : CS) (h : d.tok = .begin_) : procedures line pad (n + 1) lev off label first d s = .ok (some (d, s)) := by
  rw [procedures]
  rw [if_neg (by rw [h]; decide), if_neg (by rw [h]; decide)]

theorem procedures_next (line : Nat → Byte × Word) (pad : Byte) (n lev off : Nat) (label : Word) (first : Bool) {d d1 d2 : DS}
    {s s1 s2 : CS} (h : d.tok = .other 0x9c) (h1 : d.get off = d1)
    (h2 : (if first = true ∧ 0 < lev ∧ 0 < label.toNat then genData .jmp label.toNat s else s) = s1)
    (h3 : procedure line pad n lev d1 s1 = .ok (some (d2, s2))) :
    procedures line pad (n + 1) lev off label first d s = procedures line pad n lev off label false d2 s2 := by
  subst h1; subst h2
  rw [procedures]
  rw [if_neg (by rw [h]; decide), if_pos h]
  simp only [h3]
  rfl

theorem procedure_ok (line : Nat → Byte × Word) (pad : Byte) (n lev : Nat) {d d2 e : DS} {s s1 s2 : CS} {label : Word}
    (hi : d.tok = .ident) (hl : newLabel s = (label, s1))
    (h2 : formalParameterList lev d.last.string label.toNat n
      (DS.get { d with tab := d.tab ++ [(d.last.string, Comp.Sym.proc ⟨lev, label.toNat, []⟩)] } 0) = .ok (some d2))
    (h3 : block line pad n (lev + 1) (d2.expect .semi) (genData .label label.toNat s1) = .ok (some (e, s2))) :
    procedure line pad (n + 1) lev d s = .ok (some (({ e with tab := d2.tab.take (d.tab.length + 1) } : DS).expect .semi,
      genSimple .ret s2)) := by
  rw [procedure]
  simp only [hl]
  rw [if_neg (by simpa using hi)]
  simp only [h2]
  simp only [Res.ok_bind, h3]

theorem block_ok (line : Nat → Byte × Word) (pad : Byte) (n lev : Nat) {d e e2 e3 : DS} {s s1 s2 s3 : CS} {label : Word}
    (hl : newLabel s = (label, s1))
    (h1 : variablePart lev n { d with dstack := 0 } = .ok (some e))
    (h2 : procedures line pad n lev d.tab.length label true e s1 = .ok (some (e2, s2)))
    (h3 : blockEnd ⟨lev, line, pad⟩ n label e2 s2 = some (e3, s3)) :
    block line pad (n + 1) lev d s = .ok (some ({ e3 with
      tab := d.tab
      dstack := d.dstack }, s3)) := by
  rw [block]
  simp only [hl]
  simp only [h1, Res.ok_bind, h2, h3]

theorem reads (line : Nat → Byte × Word) (pad : Byte) {k : DK} (d : Dcl k) : Reads line pad d := by
  induction d with
  | blk ks gs ps body st ih =>
    intro lev l outer own ds r ro out tok ptr last hok hnew hsc h0 hlev hsize hdep hlab
    simp only [Dcl.Ok] at hok
    obtain ⟨hb, hps⟩ := hok
    simp only [Dcl.labels] at hlab
    simp only [Dcl.size] at hsize
    have hf : firstOffset lev = 0 := by unfold firstOffset; rw [if_neg (by omega)]
    have hnewall : AllNew (own ++ locals lev ks gs ++ ps.heads lev (l + 1)) := hb.new
    have hnewl : AllNew (locals lev ks gs) := fun e he => hnewall e (by simp [he])
    have hnames := locals_names lev ks gs
    have hdiff := hb.different
    obtain ⟨t, r', hr', hgoon⟩ := procs_goon ps (body ++ .tk .end_ :: .tk .semi :: r)
    have hapart : ∀ m ∈ ks.map (·.name) ++ (orderOf gs).map (·.1), ∀ e ∈ own, ¬ SameName e.1 m := by
      intro m hm e h
      have hdiff := hb.different
      rw [List.append_assoc, List.pairwise_append] at hdiff
      rw [← hnames] at hm
      obtain ⟨e', he', h2⟩ := List.mem_map.1 hm
      rw [← h2]
      exact hdiff.2.2 e h e' (List.mem_append_left _ he')
    obtain ⟨N1, hN1⟩ := variablePart_ok (lev := lev) (f := firstOffset lev) hnew hgoon (cs := ks) (gs := gs)
      hb.constants
      (fun c hc e he => by
        rcases List.mem_append.1 he with h | h
        · exact hb.constantNames c hc e h
        · exact hapart _ (List.mem_append_left _ (List.mem_map.2 ⟨c, List.mem_of_mem_tail hc, rfl⟩)) e h)
      (fun g hg e he => by
        rcases List.mem_append.1 he with h | h
        · exact hb.firsts g hg e h
        · exact hapart _ (List.mem_append_right _ (mem_names (List.mem_of_mem_tail hg) (by simp [Group.names]))) e h)
      (fun m hm => by
        rw [← hnames] at hm
        obtain ⟨e, he, rfl⟩ := List.mem_map.1 hm
        exact hnewl e he)
      (by
        rw [← hnames, List.pairwise_map]
        rw [List.append_assoc, List.pairwise_append] at hdiff
        exact (List.pairwise_append.1 hdiff.2.1).1)
      hb.types (fun g hg => by have := hb.bounds g hg; simpa only [locals, List.append_assoc] using this)
      (by omega) r' tok ptr last
    have hscl : ScopeOk lev (locals lev ks gs) := scopeOk_locals hlev (by omega)
    have hsc' : ScopeOk lev (outer ++ (own ++ locals lev ks gs)) := by
      rw [← List.append_assoc]; exact hsc.append hscl
    have hnew' : AllNew (outer ++ (own ++ locals lev ks gs)) := by
      rw [← List.append_assoc]; exact hnew.append hnewl
    obtain ⟨N2, hN2⟩ := ih lev (l + 1) outer (own ++ locals lev ks gs) (outer ++ own) (locals lev ks gs)
      (placedEnd (firstOffset lev) (orderOf gs)) (body ++ .tk .end_ :: .tk .semi :: r) ro out tok ptr last (l + 1) true
      hps hnew' hsc' (by simp) (fun e he => hnewall e (by simp [he])) (by
        rw [List.append_assoc, List.pairwise_append] at hdiff
        exact hdiff.2.1) (by omega) (by omega) (by omega)
    have hsch := scopeOk_heads ps hps (by omega)
    obtain ⟨N3, hN3⟩ := blockEnd_ok (lev := lev) (lb := l + 1) line pad (by omega)
      (sc := outer ++ (own ++ locals lev ks gs) ++ ps.heads lev (l + 1)) (hnew'.append fun e he => hnewall e (by simp [he]))
      (hsc'.append hsch) (ds := placedEnd (firstOffset lev) (orderOf gs)) (by omega) (body := body) (st := st)
      (by have := hb.body; simpa only [List.append_assoc] using this)
      (by have := hb.statements; simpa only [List.append_assoc] using this)
      (l := l + 1 + ps.labels) (by omega) hdep .semi r (ro ++ ps.ro pad) (out ++ (jumpOver lev (l + 1) ps ++
        ps.code line pad lev (l + 1) ro ((body ++ .tk .end_ :: .tk .semi :: r).length + 1)))
    refine ⟨max (max N1 N2) N3 + 1, fun n hn => ?_⟩
    obtain ⟨n, rfl⟩ : ∃ k, n = k + 1 := ⟨n - 1, by omega⟩
    have htoks : (Dcl.blk ks gs ps body st).toks ++ .tk .semi :: r =
        cstToks ks ++ (varToks gs ++ .tk t :: r') := by
      simp only [Dcl.toks, List.append_assoc, List.cons_append, List.nil_append, ← hr']
    rw [htoks]
    have h1 := hN1 n (by omega)
    have h2 := hN2 n (by omega)
    rw [hr', get_tk] at h2
    rw [if_pos rfl] at h2
    have hst : declared lev (firstOffset lev) (outer ++ own ++ cstScope ks) (orderOf gs) r' t none (.tk t) =
        reading (outer ++ (own ++ locals lev ks gs)) (placedEnd (firstOffset lev) (orderOf gs)) r' t none (.tk t) := by
      unfold declared locals; simp only [List.append_assoc]
    rw [hst, hf] at h1
    rw [hf] at h2
    have h3 := hN3 n (by omega)
    rw [hf] at h3
    rw [block_ok line pad n lev (newLabel_cs l ro [] out) (d := (reading (outer ++ own) ds (cstToks ks ++ (varToks gs ++ .tk t :: r')) tok ptr last).get 0)
      h1 h2 h3]
    refine congrArg (fun z => Res.ok (some z)) (Prod.ext rfl ?_)
    show cs _ _ _ _ = cs _ _ _ _
    have e1 : l + 1 + ps.labels + st.nlab = l + (Dcl.blk ks gs ps body st).labels := by simp only [Dcl.labels]; omega
    rw [e1]
    have e2 : (body ++ .tk .end_ :: .tk .semi :: r).length + 1 = body.length + 2 + (r.length + 1) := by simp; omega
    have e3 : alignUp (placedEnd 0 (orderOf gs)) = roomOf lev gs := by unfold roomOf alignUp; rw [hf]
    simp only [Dcl.ro, Dcl.code, List.append_assoc, e2, e3]
  | nil =>
    intro lev l outer own base mid ds r ro out tok ptr last lb first hok hnew hsc hbase hhn hhd h0 hlb hlab
    refine ⟨1, fun n hn => ?_⟩
    obtain ⟨n, rfl⟩ : ∃ k, n = k + 1 := ⟨n - 1, by omega⟩
    simp only [Dcl.toks, List.nil_append, get_tk]
    rw [procedures_end line pad n lev _ _ first _ rfl]
    simp [Dcl.heads, Dcl.labels, Dcl.ro, Dcl.code, jumpOver]
  | cons name parms b rest ihb ihr =>
    intro lev l outer own base mid ds r ro out tok ptr last lb first hok hnew hsc hbase hhn hhd h0 hlb hlab
    simp only [Dcl.Ok] at hok
    obtain ⟨⟨h1, h2, h3, h4⟩, h5, h6, h7⟩ := hok
    simp only [Dcl.labels] at hlab
    simp only [Dcl.heads] at hhn hhd
    have hname : New name := hhn _ (List.mem_cons_self ..)
    have hown := h6.own
    have hparm : AllNew (parmScope (lev + 1) parms) := hown.1
    have hhead : AllNew [(name, Ent.proc ⟨lev, l + 1, parmTypes parms⟩)] := by
      intro e he; rw [List.mem_singleton] at he; subst he; exact hname
    have hfresh : Fresh (outer ++ own) (table base).length name := by
      refine ⟨hname, base, mid, hbase, fun e he => ?_, .inl rfl⟩
      rw [List.pairwise_append] at hhd
      exact hhd.2.2 e he _ (List.mem_cons_self ..)
    obtain ⟨N1, hN1⟩ := formalParameterList_ok (lev := lev) name (l + 1) hnew hname ds (gs := parms)
      (b.toks ++ .tk .semi :: (rest.toks ++ .tk .begin_ :: r))
      (fun m hm => by
        rw [← parmScope_names (lev + 1)] at hm
        obtain ⟨e, he, rfl⟩ := List.mem_map.1 hm
        exact hown.1 e he)
      (by rw [← parmScope_names (lev + 1), List.pairwise_map]; exact hown.2) (fun g hg => (h5 g hg).1) .ident none (.name name)
    have hnewh : AllNew (outer ++ (own ++ [(name, Ent.proc ⟨lev, l + 1, parmTypes parms⟩)])) := by
      rw [← List.append_assoc]; exact hnew.append hhead
    have hsch : ScopeOk lev (outer ++ (own ++ [(name, Ent.proc ⟨lev, l + 1, parmTypes parms⟩)])) := by
      rw [← List.append_assoc]; exact hsc.append (scopeOk_head h1 (by omega) h2 name)
    generalize hj : (if first = true then jumpOver lev lb (Dcl.cons name parms b rest) else []) = J
    obtain ⟨N2, hN2⟩ := ihb (lev + 1) (l + 1) (outer ++ (own ++ [(name, Ent.proc ⟨lev, l + 1, parmTypes parms⟩)]))
      (parmScope (lev + 1) parms) ds (rest.toks ++ .tk .begin_ :: r) ro (out ++ J ++ [labI (l + 1)]) .semi none (.tk .semi)
      h6 (hnewh.append hparm) ((hsch.next h1).append (scopeOk_parms (by omega) (by omega) h2)) (by omega) (by omega) (by omega) h4
      (by omega)
    obtain ⟨N3, hN3⟩ := ihr lev (l + 1 + b.labels) outer (own ++ [(name, Ent.proc ⟨lev, l + 1, parmTypes parms⟩)]) base
      (mid ++ [(name, Ent.proc ⟨lev, l + 1, parmTypes parms⟩)]) ds r (ro ++ b.ro pad) (out ++ J ++ [labI (l + 1)] ++
        b.code line pad (lev + 1) (l + 1) ro ((rest.toks ++ .tk .begin_ :: r).length + 1) ++ [ins .ret 0 0])
      .semi none (.tk .semi) lb false h7 hnewh hsch (by rw [← List.append_assoc, hbase, List.append_assoc])
      (fun e he => hhn e (List.mem_cons_of_mem _ he)) (by simpa only [List.append_assoc, List.cons_append, List.nil_append] using hhd)
      h0 hlb (by omega)
    refine ⟨max (max N1 N2) N3 + 2, fun n hn => ?_⟩
    obtain ⟨n, rfl⟩ : ∃ k, n = k + 2 := ⟨n - 2, by omega⟩
    have htoks : (Dcl.cons name parms b rest).toks ++ .tk .begin_ :: r = .tk (.other 0x9c) :: .name name ::
        (parmToks parms ++ .tk .semi :: (b.toks ++ .tk .semi :: (rest.toks ++ .tk .begin_ :: r))) := by
      simp only [Dcl.toks, List.append_assoc, List.cons_append]
    rw [htoks, get_tk]
    have hJ : (if first = true ∧ 0 < lev ∧ 0 < (BitVec.ofNat 16 lb).toNat then genData .jmp (BitVec.ofNat 16 lb).toNat (cs l ro [] out)
        else cs l ro [] out) = cs l ro [] (out ++ J) := by
      have hlb0 : 0 < (BitVec.ofNat 16 lb).toNat := by simp; omega
      subst hj
      cases first with
      | false => simp
      | true =>
        by_cases hl0 : 0 < lev
        · rw [if_pos ⟨rfl, hl0, hlb0⟩, cs, jump_after _ hlb, if_pos rfl, jumpOver, if_pos hl0]; rfl
        · rw [if_neg (by simp [hl0]), if_pos rfl, jumpOver, if_neg hl0, List.append_nil]
    have hlabn : (BitVec.ofNat 16 (l + 1)).toNat = l + 1 := by simp; omega
    have e1 := hN1 (n) (by omega)
    have e2 := hN2 (n) (by omega)
    have e3 := hN3 (n + 1) (by omega)
    have e4 : genData .label (BitVec.ofNat 16 (l + 1)).toNat (cs (l + 1) ro [] (out ++ J)) =
        cs (l + 1) ro [] (out ++ J ++ [labI (l + 1)]) := by
      unfold cs; exact lab_after (by omega) _ _ _
    have e5 := procedure_ok line pad n lev (d := reading (outer ++ own) ds
        (parmToks parms ++ .tk .semi :: (b.toks ++ .tk .semi :: (rest.toks ++ .tk .begin_ :: r))) .ident none (.name name))
      (s := cs l ro [] (out ++ J)) rfl (newLabel_cs l ro [] (out ++ J))
      (Eq.trans (by
        rw [hlabn]
        simp only [reading, table_append, List.map_cons, List.map_nil]
        rfl) e1)
      (Eq.trans (by rw [e4, List.append_assoc outer own]; rfl) e2)
    rw [procedures_next line pad (n + 1) lev _ _ first rfl (get_fresh hfresh ..) hJ e5]
    have e6 : genSimple .ret (cs (l + 1 + b.labels) (ro ++ b.ro pad) [] (out ++ J ++ [labI (l + 1)] ++
        b.code line pad (lev + 1) (l + 1) ro ((rest.toks ++ .tk .begin_ :: r).length + 1))) =
      cs (l + 1 + b.labels) (ro ++ b.ro pad) [] (out ++ J ++ [labI (l + 1)] ++
        b.code line pad (lev + 1) (l + 1) ro ((rest.toks ++ .tk .begin_ :: r).length + 1) ++ [ins .ret 0 0]) := by
      unfold cs; exact genSimple_after _ _ _ _
    rw [e6]
    have e7 : ({ reading (outer ++ (own ++ [(name, Ent.proc ⟨lev, l + 1, parmTypes parms⟩)]) ++ parmScope (lev + 1) parms) ds
        (rest.toks ++ .tk .begin_ :: r) .semi none (.tk .semi) with
        tab := (reading (outer ++ own ++ [(name, Ent.proc ⟨lev, l + 1, parmTypes parms⟩)] ++
        parmScope (lev + 1) parms) ds (b.toks ++ .tk .semi :: (rest.toks ++ .tk .begin_ :: r)) .semi none (.tk .semi)).tab.take
          ((table (outer ++ own)).length + 1) } : DS) =
        reading (outer ++ (own ++ [(name, Ent.proc ⟨lev, l + 1, parmTypes parms⟩)])) ds
        (rest.toks ++ .tk .begin_ :: r) .semi none (.tk .semi) := by
      have : (table (outer ++ own)).length + 1 = (table (outer ++ own ++ [(name, Ent.proc ⟨lev, l + 1, parmTypes parms⟩)])).length := by
        rw [table_append (outer ++ own)]; simp
      simp only [reading]
      rw [this, table_append (outer ++ own ++ [(name, Ent.proc ⟨lev, l + 1, parmTypes parms⟩)]), List.take_left, List.append_assoc]
    have e8 : ({ reading (outer ++ (own ++ [(name, Ent.proc ⟨lev, l + 1, parmTypes parms⟩)]) ++ parmScope (lev + 1) parms) ds
        (rest.toks ++ .tk .begin_ :: r) .semi none (.tk .semi) with
        tab := (reading (outer ++ own ++ [(name, Ent.proc ⟨lev, l + 1, parmTypes parms⟩)] ++
        parmScope (lev + 1) parms) ds (b.toks ++ .tk .semi :: (rest.toks ++ .tk .begin_ :: r)) .semi none (.tk .semi)).tab.take
          ((reading (outer ++ own) ds
        (parmToks parms ++ .tk .semi :: (b.toks ++ .tk .semi :: (rest.toks ++ .tk .begin_ :: r))) .ident none (.name name)).tab.length + 1) } : DS).expect .semi =
        (reading (outer ++ (own ++ [(name, Ent.proc ⟨lev, l + 1, parmTypes parms⟩)])) ds
        (rest.toks ++ .tk .begin_ :: r) .semi none (.tk .semi)).get 0 := congrArg (fun d : DS => d.expect .semi) e7
    rw [e8, e3]
    refine congrArg (fun z => Res.ok (some z)) (Prod.ext ?_ ?_)
    · show reading _ _ _ _ _ _ = reading _ _ _ _ _ _
      simp only [Dcl.heads, List.append_assoc, List.cons_append, List.nil_append]
    · show cs _ _ _ _ = cs _ _ _ _
      have e9 : l + 1 + b.labels + rest.labels = l + (Dcl.cons name parms b rest).labels := by simp only [Dcl.labels]; omega
      have e10 : (rest.toks ++ .tk .begin_ :: r).length + 1 = 1 + rest.toks.length + (r.length + 1) := by simp; omega
      rw [e9, e10]
      simp only [Dcl.ro, Dcl.code, List.append_assoc, List.cons_append, List.nil_append, Bool.false_eq_true, if_false]

/-! ### Programs -/

/-- The block of a program. -/
def Source.block (P : Source) (b : S .list) : Dcl .blk := .blk P.consts P.groups P.procs P.body b

/-- The code of a program. -/
def codeP (line : Nat → Byte × Word) (pad : Byte) (P : Source) (b : S .list) : List OpType :=
  (P.block b).code line pad 0 0 [] 1 ++ [ins .end_ 0 0]

theorem size_pos (P : Source) : 4 ≤ P.size := placedEnd_mono _ _

/-- Every label belongs to a token. -/
theorem labels_le {k : DK} (d : Dcl k) : ∀ {lev l : Nat} {outer own : Scope}, d.Ok lev l outer own →
    d.labels ≤ d.toks.length := by
  induction d with
  | blk ks gs ps body st ih =>
    intro lev l outer own h
    simp only [Dcl.Ok] at h
    have h1 := ih h.2
    have h2 := nlab_le st
    have h3 : body.length = st.toks.length := h.1.body.1
    simp only [Dcl.labels, Dcl.toks, List.length_append, List.length_cons]
    omega
  | nil => intro lev l outer own h; exact Nat.zero_le _
  | cons name parms b rest ihb ihr =>
    intro lev l outer own h
    simp only [Dcl.Ok] at h
    have h1 := ihb h.2.2.1
    have h2 := ihr h.2.2.2
    simp only [Dcl.labels, Dcl.toks, List.length_append, List.length_cons]
    omega

/-- The labels of a program fit into a word. -/
theorem program_labels {P : Source} {b : S .list} (ok : P.Ok b) (hl : P.procs.toks.length + b.toks.length ≤ 65534) :
    1 + P.procs.labels + b.nlab ≤ 65535 := by
  have h := ok.block
  simp only [Dcl.Ok] at h
  have h1 := labels_le _ h.2
  have h2 := nlab_le b
  omega

/-- The compiler generates this code for a correct program, and reports no error. -/
theorem program_ok {P : Source} {b : S .list} (line : Nat → Byte × Word) (pad : Byte) (ok : P.Ok b)
    (hs : P.size ≤ 32768) (hl : P.procs.toks.length + b.toks.length ≤ 65534) (hd : b.need 0 ≤ 16384) :
    ∃ N, ∀ n, N ≤ n → program line pad n P.toks =
      .ok (some ⟨codeP line pad P b, 0, 1, P.procs.ro pad ++ b.ro pad⟩) := by
  have hlab := program_labels ok hl
  have hblk := ok.block
  simp only [Dcl.Ok, List.nil_append] at hblk
  obtain ⟨hb, hps⟩ := hblk
  have hsz : placedEnd (firstOffset 0) (orderOf P.groups) = P.size := rfl
  have hnewall : AllNew (locals 0 P.consts P.groups ++ P.procs.heads 0 (0 + 1)) := by
    have := hb.new; rw [List.nil_append] at this; exact this
  have hnewl : AllNew (locals 0 P.consts P.groups) := fun e he => hnewall e (by simp [he])
  have hnames : (locals 0 P.consts P.groups).map (·.1) = P.consts.map (·.name) ++ P.order.map (·.1) := locals_names _ _ _
  have hdiff := hb.different
  rw [List.nil_append] at hdiff
  obtain ⟨t, r', hr', hgoon⟩ := procs_goon P.procs (P.body ++ [.tk .end_, .tk .period])
  obtain ⟨N1, hN1⟩ := declarations_ok (P := P) hgoon hr' ok.name ok.files hb.constants
    (fun m hm => by
      rw [← hnames] at hm
      obtain ⟨e, he, rfl⟩ := List.mem_map.1 hm
      exact hnewl e he)
    (by
      rw [← hnames, List.pairwise_map]
      rw [List.pairwise_append] at hdiff
      exact hdiff.1) hb.types hb.bounds (by omega)
  have hscl : ScopeOk 0 (locals 0 P.consts P.groups) := scopeOk_locals (by omega) (by omega)
  obtain ⟨N2, hN2⟩ := reads line pad P.procs 0 1 [] (locals 0 P.consts P.groups) [] (locals 0 P.consts P.groups)
    P.size (P.body ++ [.tk .end_, .tk .period]) [] [] .semi none (.tk .semi) 1 true
    hps hnewl hscl rfl (fun e he => hnewall e (by simp [he])) hdiff (by omega) (by omega) (by omega)
  have hsch := scopeOk_heads P.procs hps (by omega)
  obtain ⟨N3, hN3⟩ := blockEnd_ok (lev := 0) (lb := 1) line pad (by omega)
    (sc := locals 0 P.consts P.groups ++ P.procs.heads 0 1) hnewall
    (hscl.append hsch) (ds := P.size) (by omega) (body := P.body) (st := b)
    (by have := hb.body; simpa only [List.append_assoc, List.nil_append] using this)
    (by have := hb.statements; simpa only [List.append_assoc, List.nil_append] using this)
    (l := 1 + P.procs.labels) (by omega) hd .period [] ([] ++ P.procs.ro pad) ([] ++ (jumpOver 0 1 P.procs ++
      P.procs.code line pad 0 1 [] ((P.body ++ [Lx.tk .end_, Lx.tk .period]).length + 1)))
  refine ⟨N1 + N2 + N3, fun n hn => ?_⟩
  unfold program
  rw [hN1 n (by omega)]
  simp only [Res.ok_bind]
  have h2 := hN2 n (by omega)
  rw [hr', get_tk] at h2
  have hst : declared 0 4 (cstScope P.consts) P.order r' t none (.tk t) = reading ([] ++ locals 0 P.consts P.groups) P.size r' t none (.tk t) := rfl
  have ht0 : (table []).length = primed.length := by simp [table]
  rw [ht0] at h2
  have hcs : (⟨[], [], 0, 1, 0, 0, 0, []⟩ : CS) = cs 1 [] [] [] := rfl
  rw [hst, hcs]
  have h2' : procedures line pad n 0 primed.length 1 true (reading ([] ++ locals 0 P.consts P.groups) P.size r' t none (.tk t)) (cs 1 [] [] []) = _ := h2
  rw [h2']
  simp only [Res.ok_bind]
  have h3 := hN3 n (by omega)
  simp only [if_true]
  have h3' : blockEnd ⟨0, line, pad⟩ n 1 (reading ([] ++ locals 0 P.consts P.groups ++ P.procs.heads 0 1) P.size
      (P.body ++ [.tk .end_, .tk .period]) .begin_ none (.tk .begin_)) (cs (1 + P.procs.labels) ([] ++ P.procs.ro pad) []
      ([] ++ (jumpOver 0 1 P.procs ++ P.procs.code line pad 0 1 [] ((P.body ++ [Lx.tk .end_, Lx.tk .period]).length + 1)))) = _ := h3
  rw [h3']
  simp only
  rw [if_pos (show (reading (locals 0 P.consts P.groups ++ P.procs.heads 0 1) P.size [] .period none (.tk .period)).tok = .period from rfl)]
  unfold cs
  rw [genSimple_after]
  have e2 : (P.body ++ [Lx.tk .end_, Lx.tk .period]).length + 1 = P.body.length + 2 + 1 := by simp
  have e3 : alignUp P.size = roomOf 0 P.groups := rfl
  simp only [after, codeP, Source.block, Dcl.code, List.nil_append, List.append_assoc, List.length_nil, Nat.zero_add, e2, e3]
  rfl

end Pas.Src
