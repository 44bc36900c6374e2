import Verif.Lemmas.CompLayout

/-! Running the code of a program. -/
namespace Pas.Src
open Pas.Spec Pas.Comp

/-- Storing the top word behind the base of the stack. -/
theorem st_runs {lib : Lib} {s : VM} {off : Nat} (ht : s.top < s.words)
    (h16 : s.spb.toNat + off < 65536) (ha : (s.spb.toNat + off) / 2 < s.words) :
    Runs lib [ins .st 0 off] s { s with
      sp := s.sp - 2#16
      mem := updW s.mem ((s.spb.toNat + off) / 2) (s.mem s.top) } := by
  have e : (s.spb + BitVec.ofInt 16 (off : Int)).toNat = s.spb.toNat + off := by
    have := ofInt_add_toNat s.spb (off : Int)
    omega
  refine .one (o := .st) rfl rfl ?_
  rw [store_effect (o := .st) rfl rfl ht]
  have a3 : hasArg8 Op.st.toByte = false := rfl
  have a4 : hasArg16 Op.st.toByte = true := rfl
  simp only [ins, a3, a4, if_true, Bool.false_eq_true, if_false, storeM]
  rw [e, if_pos ha]
  rfl

theorem top_add {s : VM} {d : Nat} (h : s.sp.toNat + d < 65536) (he : d % 2 = 0) :
    ({ s with sp := s.sp + BitVec.ofInt 16 (d : Int) } : VM).top = s.top + d / 2 := by
  show (s.sp + BitVec.ofInt 16 (d : Int)).toNat / 2 = s.sp.toNat / 2 + d / 2
  have := ofInt_add_toNat s.sp (d : Int)
  omega

/-- One of the two initial stores. -/
theorem init_runs {lib : Lib} {s : VM} {v off : Nat} (hf : Free s 1)
    (h16 : s.spb.toNat + off < 65536) (ha : (s.spb.toNat + off) / 2 < s.words) :
    ∃ m, Runs lib [ins .push 0 v, ins .st 0 off] s { s with mem := m } ∧
      (∀ j, j ≠ (s.spb.toNat + off) / 2 → j ≠ s.top + 1 → m j = s.mem j) ∧
      m ((s.spb.toNat + off) / 2) = BitVec.ofNat 16 v := by
  have h1 := push_runs (lib := lib) hf v
  have ht : (psh s (BitVec.ofInt 16 (v : Int))).top = s.top + 1 := psh_top hf
  have h2 := st_runs (lib := lib) (s := psh s (BitVec.ofInt 16 (v : Int))) (off := off)
    (by rw [ht]; exact hf.1) h16 ha
  have e : s.sp + 2#16 - 2#16 = s.sp := by bv_omega
  generalize hv : (psh s (BitVec.ofInt 16 (v : Int))).mem (psh s (BitVec.ofInt 16 (v : Int))).top = u
    at h2
  refine ⟨updW (updW s.mem (s.top + 1) (BitVec.ofInt 16 (v : Int))) ((s.spb.toNat + off) / 2) u, ?_, ?_, ?_⟩
  · have h3 : Runs lib [ins .push 0 v, ins .st 0 off] s { s with
        sp := s.sp + 2#16 - 2#16
        mem := updW (updW s.mem (s.top + 1) (BitVec.ofInt 16 (v : Int))) ((s.spb.toNat + off) / 2) u } :=
      h1.append h2
    rw [e] at h3
    exact h3
  · intro j h1 h2
    exact (updW_other _ _ h1).trans (updW_other _ _ h2)
  · refine (updW_same _ _ _).trans ?_
    rw [← hv, ht]
    exact (updW_same _ _ _).trans (by simp)

/-- The code before the statements. -/
theorem prologue_runs {lib : Lib} {s : VM} {d : Nat} (hd : d % 2 = 0) (hd4 : 4 ≤ d)
    (hsp : s.sp = s.spb) (hr : s.spb.toNat + d + 4 ≤ 2 * s.words) (hw : s.words ≤ 32767) :
    ∃ m, Runs lib [ins .inds 0 d, ins .push 0 0, ins .st 0 0, ins .push 0 1, ins .st 0 2] s
        { s with
          sp := s.sp + BitVec.ofInt 16 (d : Int)
          mem := m } ∧
      (∀ j, s.spb.toNat / 2 + 2 ≤ j → j ≤ s.spb.toNat / 2 + d / 2 → m j = s.mem j) ∧
      (∀ j, j < s.spb.toNat / 2 → m j = s.mem j) ∧ m ((s.spb.toNat + 2) / 2) = 1#16 ∧
      m (s.spb.toNat / 2) = 0#16 := by
  have ht : ({ s with sp := s.sp + BitVec.ofInt 16 (d : Int) } : VM).top = s.spb.toNat / 2 + d / 2 := by
    rw [top_add (by rw [hsp]; omega) hd, VM.top, hsp]
  have hf : Free ({ s with sp := s.sp + BitVec.ofInt 16 (d : Int) } : VM) 1 := by
    refine ⟨?_, by show s.words ≤ _; omega⟩
    rw [ht]; show _ < s.words; omega
  obtain ⟨m1, h1, k1, v1⟩ := init_runs (lib := lib) (v := 0) (off := 0) hf
    (by show s.spb.toNat + 0 < _; omega) (by show (s.spb.toNat + 0) / 2 < s.words; omega)
  obtain ⟨m2, h2, k2, v2⟩ := init_runs (lib := lib) (s := { s with
      sp := s.sp + BitVec.ofInt 16 (d : Int)
      mem := m1 }) (v := 1) (off := 2) hf
    (by show s.spb.toNat + 2 < _; omega) (by show (s.spb.toNat + 2) / 2 < s.words; omega)
  have key : ∀ j, j ≠ (s.spb.toNat + 2) / 2 → j ≠ (s.spb.toNat + 0) / 2 → j ≤ s.spb.toNat / 2 + d / 2 →
      m2 j = s.mem j := by
    intro j h1 h2 h3
    rw [k2 j h1 (by
      show j ≠ ({ s with sp := s.sp + BitVec.ofInt 16 (d : Int) } : VM).top + 1
      rw [ht]; omega)]
    exact k1 j h2 (by rw [ht]; omega)
  refine ⟨m2, (inds_runs s d).append (h1.append h2), fun j hj hj' => key j (by omega) (by omega) hj',
    fun j hj => key j (by omega) (by omega) (by omega), v2, ?_⟩
  rw [k2 (s.spb.toNat / 2) (by show s.spb.toNat / 2 ≠ (s.spb.toNat + 2) / 2; omega) (by
    show s.spb.toNat / 2 ≠ ({ s with sp := s.sp + BitVec.ofInt 16 (d : Int) } : VM).top + 1
    rw [ht]; omega)]
  exact v1

/-! ### The variables -/

theorem Source.var_inside {P : Source} {x : Variable} (h : Scope.vars P.vars x) :
    x.level = 0 ∧ 4 ≤ x.off ∧ x.off + (x.ty.size : Int) ≤ P.size ∧
      (x.ty.size = 2 → x.off % 2 = 0) :=
  placed_inside _ _ _ h

theorem Source.env_ok {P : Source} {base : Nat} (hs : P.size ≤ 65535) (he : base % 2 = 0)
    (hq : ∀ q, (P.env base).procs q → q.Ok 0) : (P.env base).Ok where
  level := by simp [Source.env]
  outer x hx := by rw [(Source.var_inside hx).1]; exact Nat.zero_le _
  offset0 x hx _ := by
    have := Source.var_inside hx
    omega
  offset x hx h0 := absurd (Source.var_inside hx).1 h0
  aligned x hx h2 := by
    have := Source.var_inside hx
    have h3 := this.2.2.2 h2
    show (base + x.off.toNat) % 2 = 0
    omega
  disjoint x y a hx hy ox oy := by
    have h1 := Source.var_inside hx
    have h2 := Source.var_inside hy
    have ox1 : base + x.off.toNat ≤ a := ox.1
    have ox2 : a < base + x.off.toNat + x.ty.size := ox.2
    have oy1 : base + y.off.toNat ≤ a := oy.1
    have oy2 : a < base + y.off.toNat + y.ty.size := oy.2
    rcases placed_apart P.order 0 4 hx hy with h | h | h
    · exact h
    · have h : x.off + (x.ty.size : Int) ≤ y.off := h
      omega
    · have h : y.off + (y.ty.size : Int) ≤ x.off := h
      omega
  procs := hq

theorem Source.env_in {P : Source} {s : VM} (hs : P.size ≤ 32768)
    (hr : s.spb.toNat + P.room + 4 ≤ 2 * s.words) (hw : s.words ≤ 32767)
    (hfp : s.fp.toNat + 10 ≤ s.spb.toNat) (hlev : (s.mem (s.fp.toNat / 2 + 4)).toNat % 256 = 0)
    (hlsp : s.lsp.toNat < 256) :
    (P.env s.spb.toNat).In s (s.spb.toNat / 2 + P.room / 2) where
  inside x hx := by
    have := Source.var_inside hx
    show (s.spb.toNat + x.off.toNat) / 2 ≤ _
    have : 0 < x.ty.size := by rcases byteSize_cases x.ty with h | h <;> omega
    unfold Source.room
    omega
  bound := by omega
  global x hx _ := by
    have := Source.var_inside hx
    show ((s.spb.toNat + x.off.toNat : Nat) : Int) = _
    unfold Source.room at hr
    omega
  frame x hx h0 := absurd (Source.var_inside hx).1 h0
  levels j hj := by
    have hj : j ≤ 0 := hj
    obtain rfl : j = 0 := by omega
    refine ⟨_, .here _, ⟨by omega, fun y a hy ha => ?_⟩, hlev⟩
    have h1 := Source.var_inside hy
    have h2 : s.spb.toNat + y.off.toNat ≤ a := ha.1
    omega
  lsp := hlsp

/-- Memory that agrees on the variables holds the same values. -/
theorem Env.Holds.congr {Γ : Env} {m m' : Nat → Word} {σ : Store} (h : Γ.Holds m σ)
    (hm : ∀ x, Γ.vars x → m' (Γ.addr x / 2) = m (Γ.addr x / 2)) : Γ.Holds m' σ := by
  intro x v hx hv
  obtain ⟨h1, h2, h3⟩ := h x v hx hv
  refine ⟨h1, fun hs => by rw [hm x hx, h2 hs], fun hs => ?_⟩
  rw [← h3 hs]
  unfold byte
  rw [hm x hx]

/-! ### The whole program -/

section
variable {line : Nat → Byte × Word} {pad : Byte} {P : Source} {b : S .list}

theorem codeP_uniq (ok : P.Ok b) (hl : P.procs.toks.length + b.toks.length ≤ 65534) : Uniq (codeP line pad P b) := by
  apply uniq_of_cnt
  intro v hv
  have hn := program_labels ok hl
  have h := cnt_codeD line pad (P.block b) 0 0 [] 1 v hv (by simp only [Source.block, Dcl.labels]; omega)
  unfold codeP
  rw [cnt_append, cnt_ins (by decide), cnt_nil]
  simp only [within] at h
  revert h
  (repeat' split) <;> (intros; omega)

theorem codeP_jumps (ok : P.Ok b) : ∀ i ∈ (P.block b).code line pad 0 0 [] 1,
    Calm i ∨ (∃ v, i = labI v) ∨ ∃ o a v, i = ins o a ((v : Nat) : Int) ∧
      (o = .jmp ∨ o = .jequz ∨ o = .jequ ∨ o = .jneq ∨ o = .jlt ∨ o = .jgt ∨ o = .pcal) ∧
      labI v ∈ codeP line pad P b :=
  jumps_codeD line pad (P.block b) 0 0 [] 1 [] [] ok.block (fun q ⟨_, h⟩ => by cases h)
    fun i hi => List.mem_append_left _ hi

/-- What the instructions of a program are. -/
theorem codeP_cases (ok : P.Ok b) {i : OpType} (hi : i ∈ codeP line pad P b) :
    Calm i ∨ (∃ v, i = labI v) ∨ i = ins .end_ 0 0 ∨ ∃ o a v, i = ins o a ((v : Nat) : Int) ∧
      (o = .jmp ∨ o = .jequz ∨ o = .jequ ∨ o = .jneq ∨ o = .jlt ∨ o = .jgt ∨ o = .pcal) ∧
      labI v ∈ codeP line pad P b := by
  rw [codeP, List.mem_append] at hi
  rcases hi with hi | hi
  · rcases codeP_jumps ok i hi with h | h | h
    · exact .inl h
    · exact .inr (.inl h)
    · exact .inr (.inr (.inr h))
  · exact .inr (.inr (.inl (by simpa using hi)))

theorem ins_wellFormed (o : Op) (a b : Int) : WellFormed (ins o a b) :=
  ⟨⟨o, rfl⟩, fun h => if_neg (by rw [show hasArg8 o.toByte = false from h]; decide),
    fun h => if_neg (by rw [show hasArg16 o.toByte = false from h]; decide)⟩

theorem codeP_wellFormed (ok : P.Ok b) : ∀ i ∈ codeP line pad P b, WellFormed i := by
  intro i hi
  rcases codeP_cases ok hi with ⟨o, a, c, rfl, _⟩ | ⟨v, rfl⟩ | rfl | ⟨o, a, v, rfl, _⟩ <;>
    exact ins_wellFormed _ _ _

theorem codeP_once (ok : P.Ok b) : EndsOnce (codeP line pad P b) := by
  intro i hi
  rw [codeP, List.dropLast_concat] at hi
  intro he
  rcases codeP_jumps ok i hi with ⟨o, a, c, rfl, h⟩ | ⟨v, rfl⟩ | ⟨o, a, v, rfl, h, _⟩
  · have : o = .end_ := Op.toByte_inj he
    subst this
    revert h; decide
  · exact absurd he (by show Op.label.toByte ≠ Op.end_.toByte; decide)
  · have : o = .end_ := Op.toByte_inj he
    subst this
    revert h; decide

theorem codeP_last : (codeP line pad P b).getLast?.map (·.op) = some Op.end_.toByte := by
  rw [codeP, List.getLast?_concat]
  rfl

theorem codeP_signed (ok : P.Ok b) : ∀ i ∈ codeP line pad P b, ∀ o : Op, o.toByte = i.op →
    ¬ UnsignedJump o := by
  intro i hi o ho hu
  rcases codeP_cases ok hi with ⟨o', a, c, rfl, h⟩ | ⟨v, rfl⟩ | rfl | ⟨o', a, v, rfl, h, _⟩
  · have : o = o' := Op.toByte_inj ho
    subst this
    rcases hu with rfl | rfl | rfl | rfl <;> revert h <;> decide
  · have : o = .label := Op.toByte_inj ho
    subst this
    revert hu; unfold UnsignedJump; decide
  · have : o = .end_ := Op.toByte_inj ho
    subst this
    revert hu; unfold UnsignedJump; decide
  · have : o = o' := Op.toByte_inj ho
    subst this
    rcases hu with rfl | rfl | rfl | rfl <;> revert h <;> decide

theorem codeP_labels (ok : P.Ok b) (hl : P.procs.toks.length + b.toks.length ≤ 65534) :
    LabelsOk (codeP line pad P b) [] := by
  intro i hi o ho hp
  left
  rcases codeP_cases ok hi with ⟨o', a, c, rfl, h⟩ | ⟨v, rfl⟩ | rfl | ⟨o', a, v, rfl, h, hm⟩
  · have := Op.toByte_inj ho
    subst this
    simp only [calm, decide_eq_true_eq] at h
    exact absurd hp h.2.2
  · have : o = .label := Op.toByte_inj ho
    subst this
    exact absurd hp (by decide)
  · have : o = .end_ := Op.toByte_inj ho
    subst this
    exact absurd hp (by decide)
  · obtain ⟨k, hk⟩ := List.mem_iff_getElem?.1 hm
    refine ⟨k, ?_⟩
    have e : (ins o' a ((v : Nat) : Int)).arg2 = BitVec.ofNat 16 v := by
      have h16 : hasArg16 o'.toByte = true := by
        rcases h with rfl | rfl | rfl | rfl | rfl | rfl | rfl <;> rfl
      simp only [ins, h16, if_true]
      simp
    rw [e]
    exact label_at (codeP_uniq ok hl) hk

/-- Where the statements of the program begin, after the procedures. -/
def startP (line : Nat → Byte × Word) (pad : Byte) (P : Source) : Nat :=
  (P.procs.code line pad 0 1 [] (P.body.length + 2 + 1)).length

theorem codeP_at : At (codeP line pad P b) 0 ((P.block b).code line pad 0 0 [] 1) := by
  have hat : At (codeP line pad P b) 0 (codeP line pad P b) := by
    intro j i hj; rw [Nat.zero_add]; exact hj
  exact hat.left

theorem jumpOver_zero (l : Nat) (ps : Dcl .procs) : jumpOver 0 l ps = [] := by
  cases ps <;> rfl

theorem startP_at : At (codeP line pad P b) (startP line pad P) (codeB ⟨0, line, pad⟩ 1 P.room b (b.toks.length + 2)
    (1 + P.procs.labels) (P.procs.ro pad) ++ [ins .end_ 0 0]) := by
  have hat : At (codeP line pad P b) 0 (codeP line pad P b) := by
    intro j i hj; rw [Nat.zero_add]; exact hj
  have e : codeP line pad P b = P.procs.code line pad 0 1 [] (P.body.length + 2 + 1) ++
      (codeB ⟨0, line, pad⟩ 1 P.room b (b.toks.length + 2) (1 + P.procs.labels) (P.procs.ro pad) ++ [ins .end_ 0 0]) := by
    simp only [codeP, Source.block, Dcl.code, jumpOver_zero, List.nil_append, List.append_assoc, Nat.zero_add]
    rfl
  have h : At (codeP line pad P b) 0 (P.procs.code line pad 0 1 [] (P.body.length + 2 + 1) ++
      (codeB ⟨0, line, pad⟩ 1 P.room b (b.toks.length + 2) (1 + P.procs.labels) (P.procs.ro pad) ++ [ins .end_ 0 0])) := e ▸ hat
  have := h.right
  rwa [Nat.zero_add] at this

/-- The code begins with the label of the program. -/
theorem startP_label (ok : P.Ok b) (hl : P.procs.toks.length + b.toks.length ≤ 65534) :
    LabelAt (codeP line pad P b) 1#16 (startP line pad P) :=
  label_at (l := 1) (codeP_uniq ok hl) startP_at.head

theorem place_pcal {p : List OpType} {k : Nat} {i : OpType} (h : p[k]? = some i) (hi : i.op = Op.pcal.toByte) :
    place p (k + 1) = place p k + 4#16 := by
  unfold place
  have hm : isMark i = false := by unfold isMark; rw [hi]; decide
  have hs : byteSize i = 4 := by unfold byteSize byteSize.operandBytes16; rw [hi]; decide
  rw [addrOf_succ_real h hm, hs]
  apply BitVec.eq_of_toNat_eq
  simp [BitVec.toNat_add]

theorem Source.vars_eq (P : Source) (base : Nat) :
    Scope.vars (locals 0 P.consts P.groups ++ P.procs.heads 0 1) = (P.env base).vars := by
  funext x
  apply propext
  rw [vars_append]
  exact ⟨fun h => h.elim vars_locals' fun h => (vars_heads h).elim, fun h => .inl (vars_append.2 (.inr h))⟩

theorem Source.procs_eq (P : Source) (base : Nat) :
    Scope.procs (locals 0 P.consts P.groups ++ P.procs.heads 0 1) = (P.env base).procs := by
  funext x
  apply propext
  rw [procs_append]
  exact ⟨fun h => h.elim (fun h => (procs_locals h).elim) id, .inr⟩

theorem Source.stmts_ok (ok : P.Ok b) (base : Nat) : b.Ok (P.env base).vars (P.env base).procs false false := by
  have h := ok.block
  simp only [Dcl.Ok, List.nil_append, Nat.zero_add] at h
  have := h.1.statements
  simp only [List.nil_append] at this
  rw [P.vars_eq base, P.procs_eq base] at this
  exact this

theorem Source.procs_ok (ok : P.Ok b) (hl : P.procs.toks.length + b.toks.length ≤ 65534) (base : Nat) :
    ∀ q, (P.env base).procs q → q.Ok 0 := by
  have h := ok.block
  simp only [Dcl.Ok, List.nil_append, Nat.zero_add] at h
  have hn := program_labels ok hl
  exact (scopeOk_heads P.procs h.2 (by omega)).procs

/-- The procedures of a program are the declared ones. -/
theorem Source.decl_iff (P : Source) {q : Proc} {decl : Decl} : declIn P.decls q = some decl ↔ (q, decl) ∈ P.decls :=
  ⟨declIn_mem, declIn_of_mem (decls_labels P.procs 0 1 (locals 0 P.consts P.groups)).2⟩

theorem Source.decls_block (P : Source) (b : S .list) : P.decls = (P.block b).decls 0 0 ([] ++ []) := rfl

/-- The declarations of a correct program are correct. -/
theorem Source.decls_ok (ok : P.Ok b) (hs : P.size ≤ 32768) (hl : P.procs.toks.length + b.toks.length ≤ 65534) :
    ∀ q decl, declIn P.decls q = some decl → decl.Ok (declIn P.decls) q := by
  intro q decl h
  have hn := program_labels ok hl
  refine Src.decls_ok (P.block b) 0 0 [] [] ok.block (by simp only [Source.block, Dcl.labels]; omega)
    ⟨hs, by omega, fun q ⟨_, h⟩ => by cases h⟩ ⟨fun x ⟨_, h, _⟩ => (by cases h), fun x ⟨_, h⟩ => (by cases h)⟩
    (fun x ⟨_, h⟩ => by cases h) (fun e he => P.decl_iff.2 he) (q, decl) (P.decl_iff.1 h)

theorem Source.sees (P : Source) (base : Nat) : Sees (declIn P.decls) (P.env base).vars (P.env base).procs := by
  rw [← P.vars_eq base, ← P.procs_eq base]
  refine Sees.heads P.procs ?_ fun e he => P.decl_iff.2 he
  intro q hq
  exact (procs_locals hq).elim

/-- From the start of the program to its END. -/
theorem codeP_run (lib : Lib) (ok : P.Ok b) (hs : P.size ≤ 32768)
    (hl : P.procs.toks.length + b.toks.length ≤ 65534) {d : Nat} {s : VM} (hsp : s.sp = s.spb)
    (he : s.spb.toNat % 2 = 0) (hr : s.spb.toNat + P.room + 2 * b.need (callRoom P.decls d) + 4 ≤ 2 * s.words)
    (hw : s.words ≤ 32767) (hfp : s.fp.toNat + 10 ≤ s.spb.toNat)
    (hlev : (s.mem (s.fp.toNat / 2 + 4)).toNat % 256 = 0) (hlsp : s.lsp.toNat < 256) {σ τ : State}
    (hx : Exec (P.calls d) (.list b) σ .normal τ)
    (hh : (P.env s.spb.toNat).Holds s.mem σ.store)
    (hro : s.rop.toNat + (P.procs.ro pad ++ b.ro pad).length ≤ s.spb.toNat)
    (hcon : ∀ j (h : j < (P.procs.ro pad ++ b.ro pad).length),
      byte s.mem (s.rop.toNat + j) = (P.procs.ro pad ++ b.ro pad)[j])
    (hout : ∀ text, σ.out = some text → (∃ fpu host, lib.sysIo = SysIo.sysIo fpu host) ∧
      OpenOut s 1#16 .stdout text.length ∧ fileText s .stdout = text)
    (hinp : ∀ i, σ.inp = some i → (∃ fpu host, lib.sysIo = SysIo.sysIo fpu host) ∧
      OpenIn s 0#16 .stdin 0 ∧ (s.io.table 0).eoln = false ∧ i = ⟨false, fileText s .stdin⟩) :
    ∃ k t, PSteps lib (place (codeP line pad P b)) (codeP line pad P b) (startP line pad P, s) (k, t) ∧
      AtEnd (codeP line pad P b) (k, t) ∧
      (P.env s.spb.toNat).Holds t.mem τ.store ∧ (∀ text, τ.out = some text → fileText t .stdout = text) ∧
      (σ.out = none → σ.inp = none → t.io = s.io) ∧ ∀ f, f ≠ .stdout → t.io.files f = s.io.files f := by
  generalize hR : P.procs.ro pad ++ b.ro pad = R at *
  have h4 := size_pos P
  have hd : P.room % 2 = 0 := by unfold Source.room; omega
  have hd4 : 4 ≤ P.room := by unfold Source.room; omega
  have hu := codeP_uniq (line := line) (pad := pad) ok hl
  have hat := startP_at (line := line) (pad := pad) (P := P) (b := b)
  have hplaced : ∀ q decl, declIn P.decls q = some decl → PlacedAt (codeP line pad P b) R q decl := fun q decl h =>
    placed_at line pad (P.block b) 0 0 [] 1 [] 0 codeP_at (by rw [← hR]; exact List.prefix_rfl) q decl (P.decl_iff.1 h)
  obtain ⟨m, h1, k1, k2, k3, k4⟩ := prologue_runs (lib := lib) hd hd4 hsp (by omega) hw
  generalize hp : codeP line pad P b = p at *
  have esp : space (P.room : Int) = [ins .inds 0 P.room] := if_neg (by omega)
  have esn : space (-(P.room : Int)) = [ins .inds 0 (-(P.room : Int))] := if_neg (by omega)
  have ecode : codeB ⟨0, line, pad⟩ 1 P.room b (b.toks.length + 2) (1 + P.procs.labels) (P.procs.ro pad) ++ [ins .end_ 0 0] =
      labI 1 :: ([ins .inds 0 P.room, ins .push 0 0, ins .st 0 0, ins .push 0 1, ins .st 0 2] ++
        (codeS ⟨0, line, pad⟩ b (b.toks.length + 2) (1 + P.procs.labels) (top0 (P.procs.ro pad)) ++
          ([ins .inds 0 (-(P.room : Int))] ++ [ins .end_ 0 0]))) := by
    unfold codeB
    rw [esp, esn, if_pos rfl]
    simp [initial]
  rw [ecode] at hat
  have a2 := hat.tail.right
  have hΓ := Source.env_ok (P := P) (base := s.spb.toNat) (by omega) he (Source.procs_ok ok hl _)
  have hin := Source.env_in (P := P) (s := s) hs (by omega) hw hfp hlev hlsp
  let s1 : VM := { s with
    sp := s.sp + BitVec.ofInt 16 (P.room : Int)
    mem := m }
  have hin1 : (P.env s.spb.toNat).In s1 (s.spb.toNat / 2 + P.room / 2) :=
    Source.env_in (s := s1) hs (by show s.spb.toNat + _ + 4 ≤ 2 * s.words; omega) hw hfp
      (by show (m _).toNat % _ = _; rw [k2 _ (by show s.fp.toNat / 2 + 4 < _; omega)]; exact hlev) hlsp
  have hh1 : (P.env s.spb.toNat).Holds s1.mem σ.store := by
    refine hh.congr fun x hx => k1 _ ?_ (hin.inside x hx)
    have := Source.var_inside hx
    show _ ≤ (s.spb.toNat + x.off.toNat) / 2
    omega
  have ht : s1.top = s.spb.toNat / 2 + P.room / 2 := by
    have := top_add (s := s) (d := P.room) (by rw [hsp]; omega) hd
    refine Eq.trans this ?_
    rw [VM.top, hsp]
  have hgood : Good lib (P.env s.spb.toNat) R (s.spb.toNat / 2 + P.room / 2) σ.io s1 σ := by
    have far : ∀ y a, (P.env s.spb.toNat).vars y → (P.env s.spb.toNat).Owns y a → s.spb.toNat + 4 ≤ a := by
      intro y a hy ha
      have h1 := Source.var_inside hy
      have h2 : s.spb.toNat + y.off.toNat ≤ a := ha.1
      omega
    refine ⟨⟨hh1, fun text htext => ?_, fun i hi => ?_⟩, fun h => by simpa [State.io] using h⟩
    rotate_left
    · obtain ⟨o1, o2, o3, rfl⟩ := hinp i hi
      refine ⟨o1, ⟨0, ⟨o2.1, o2.2, o2.3⟩, ?_⟩, o3, he, ?_, k4, fun y a hy ha => ?_⟩
      · simp only [Bool.false_eq_true, if_false, List.drop_zero]; rfl
      · show s.spb.toNat / 2 ≤ _; omega
      · have := far y a hy ha
        show a / 2 ≠ s.spb.toNat / 2; omega
    obtain ⟨o1, o2, o3⟩ := hout text htext
    refine ⟨o1, ⟨o2.1, o2.2⟩, o3, he, ⟨?_, ?_⟩, k3, fun y a hy ha => ?_, ⟨?_, ?_⟩, fun j hj => ?_, fun y a hy ha => ?_⟩
    · show s.spb.toNat + 2 < 65536; omega
    · show (s.spb.toNat + 2) / 2 ≤ _; omega
    · have := far y a hy ha
      show a / 2 ≠ (s.spb.toNat + 2) / 2; omega
    · show s.rop.toNat + _ ≤ 65535; omega
    · show (s.rop.toNat + _) / 2 ≤ _; omega
    · rw [← hcon j hj]
      show byte m (s.rop.toNat + j) = _
      unfold byte
      rw [k2 _ (by omega)]
    · have := far y a hy ha
      show s.rop.toNat + _ ≤ a; omega
  have hcalls := calls_ok (lib := lib) (addr := place p) (ro := R) (wr := σ.io) (c := callRoom P.decls) hu
    (Source.decls_ok ok hs hl) hplaced (fun k i => place_pcal) (callRoom_room P.decls) d (P.env s.spb.toNat)
    (s.spb.toNat / 2 + P.room / 2) hΓ (P.sees _)
  have hsim := sim (g := ⟨0, line, pad⟩) lib (place p) (s.spb.toNat / 2 + P.room / 2) R σ.io hΓ rfl hu hcalls hx
    (b.toks.length + 2) (1 + P.procs.labels) (top0 (P.procs.ro pad)) _ s1 false false (Source.stmts_ok ok _)
    (by rw [← hR]; exact List.prefix_rfl) a2.left hin1 hgood (by
      show (s.sp + BitVec.ofInt 16 (P.room : Int)).toNat % 2 = 0
      have := ofInt_add_toNat s.sp (P.room : Int)
      rw [hsp] at this ⊢
      omega) (by rw [ht]; exact Nat.le_refl _) ⟨by rw [ht]; show _ < s.words; omega, by show s.words ≤ _; omega⟩
  obtain ⟨t, h2, hk, _, h3⟩ := hsim
  have a3 := a2.right
  have h4 := (inds_runs (lib := lib) t (-(P.room : Int))).steps (addr := place p)
    (At.left (c := [ins .inds 0 (-(P.room : Int))]) (c' := [ins .end_ 0 0]) a3)
  refine ⟨_, _, PSteps.append (PSteps.append ((label_step hat.head s).append
    (h1.steps (addr := place p) hat.tail.left)) h2) h4, ⟨_, a3.tail.head, rfl⟩, h3.has.holds,
    fun text htext => (h3.has.output text htext).text, fun h h' => hk.quiet (by simp [State.io, h, h']), hk.files⟩

end

end Pas.Src
