import Verif.Lemmas.CompRun
import Verif.Spec.Statements

/-! The code generated for statements. -/
namespace Pas.Src
open Pas.Spec Pas.Comp

/-- Where BREAK and CONTINUE go, how many bytes they have to remove from the stack, and the labels
of the current case and of the end of the CASE statement, and the read-only data so far. -/
structure Ctx where
  cont : Nat
  brk : Nat
  adj : Int
  this : Nat
  fin : Nat
  ro : List Byte

/-- The read-only data of items and statements. -/
def Item.ro (p : Byte) : Item → List Byte
  | .str t => roString p t
  | _ => []

def itemsRo (p : Byte) : List Item → List Byte
  | [] => []
  | i :: is => i.ro p ++ itemsRo p is

def S.ro (p : Byte) : {k : SK} → S k → List Byte
  | _, .ifThen _ s => s.ro p
  | _, .ifElse _ s t => s.ro p ++ t.ro p
  | _, .while_ _ s => s.ro p
  | _, .repeat_ l _ => l.ro p
  | _, .for_ _ _ _ _ s => s.ro p
  | _, .case_ _ cs => cs.ro p
  | _, .block l => l.ro p
  | _, .one s => s.ro p
  | _, .cons s l => s.ro p ++ l.ro p
  | _, .last _ _ s _ => s.ro p
  | _, .more _ _ s cs => s.ro p ++ cs.ro p
  | _, .otherwise s _ => s.ro p
  | _, .write _ _ i is => itemsRo p (i :: is)
  | _, _ => []

def lineI (g : Cfg) (m : Nat) : OpType := ins .line (g.line m).1.toNat (g.line m).2.toNat

def labI (l : Nat) : OpType := ins .label 0 l

/-- The code of BREAK and CONTINUE. -/
def leave (a : Int) (l : Nat) : List OpType :=
  if a = 0 then [ins .jmp 0 l] else [ins .inds 0 a, ins .jmp 0 l]

def Const.n : Const → Nat
  | .int n => n
  | .bool b => if b then 0xffffffff else 0
  | .char c => c.toNat

/-- The comparisons with the constants of a case. -/
def codeK (st nx : Nat) : Const → List Const → List OpType
  | k, [] => [ins .dup 0 0, ins .push 0 k.n, ins .jneq 0 nx]
  | k, k' :: ks => ins .dup 0 0 :: ins .push 0 k.n :: ins .jequ 0 st :: codeK st nx k' ks

/-- The code for a field width. -/
def codeW (lev : Nat) : Option (E .expr) → List OpType
  | none => [ins .push 0 0]
  | some w => code lev (.a (.num .shortInteger)) w ++ [ins .push 0 8, ins .sll 0 0]

/-- The operation that writes a value. -/
def wrOp : Ty → Int
  | .num .integer | .num .shortInteger => 0x1b
  | .num .word | .num .shortWord => 0x1c
  | .char => 0x1f
  | .bool => 0

/-- The code of an item, with `r` bytes of read-only data before it. -/
def codeI (lev : Nat) (r : Nat) : Item → List OpType
  | .val e w => ins .dup 0 0 :: (code lev .any e ++ (codeW lev w ++
      [ins .sysio 0 (wrOp ((e.typeOf .any).getD .bool))]))
  | .str t => [ins .dup 0 0, ins .push 0 t.length, ins .lac 0 ((r % 65536 : Nat) : Int),
      ins .push 0 t.length, ins .push 0 0, ins .sysio 0 0x20]

def codeIs (lev : Nat) (p : Byte) (r : Nat) : List Item → List OpType
  | [] => []
  | i :: is => codeI lev r i ++ codeIs lev p (r + (i.ro p).length) is

/-- The code that reads a variable. -/
def codeV (lev : Nat) (x : Variable) : List OpType :=
  [ins .dup 0 0, ref lev .las x, ins .sysio 0 (if x.ty = .char then 0x15 else 0x14)]

def codeVs (lev : Nat) : List Variable → List OpType
  | [] => []
  | x :: xs => codeV lev x ++ codeVs lev xs

/-- The code of the parameters of a call. -/
def codeA (lev : Nat) : List Ty → List (E .expr) → List OpType
  | t :: ts, e :: es => code lev (.a t) e ++ codeA lev ts es
  | _, _ => []

/-- The code of a call after its parameters. -/
def callCode (q : Proc) : List OpType :=
  ins .pcal (q.level + 1 : Nat) q.label ::
    (if q.parms = [] then [] else [ins .inds 0 (-(2 * q.parms.length : Nat))])

/-- The code of a statement when `m` tokens are left and `l` labels have been used. -/
def codeS (g : Cfg) : {k : SK} → S k → (m l : Nat) → Ctx → List OpType
  | _, .empty, m, _, _ => [lineI g m]
  | _, .assign x e, m, _, _ =>
    lineI g m :: (code g.level (.a x.ty) e ++ [ref g.level (stO x.ty) x])
  | _, .assignAt a i e, m, _, _ =>
    lineI g m :: (code g.level (.a (.num .integer)) i ++ idxI a ++ code g.level (.a a.ty) e ++
      [ref g.level (stxO a.ty) a.base])
  | _, .ifThen e s, m, l, c =>
    lineI g m :: (code g.level (.a .bool) e ++ ins .jequz 0 ((l + 1 : Nat) : Int) ::
      (codeS g s (m - (e.toks.length + 2)) (l + 1) c ++ [labI (l + 1)]))
  | _, .ifElse e s t, m, l, c =>
    lineI g m :: (code g.level (.a .bool) e ++ ins .jequz 0 ((l + 1 : Nat) : Int) ::
      (codeS g s (m - (e.toks.length + 2)) (l + 1) c ++
      ins .jmp 0 ((l + 2 + s.nlab : Nat) : Int) :: labI (l + 1) ::
      (codeS g t (m - (e.toks.length + s.toks.length + 3)) (l + 2 + s.nlab)
        { c with ro := c.ro ++ s.ro g.pad } ++ [labI (l + 2 + s.nlab)])))
  | _, .while_ e s, m, l, c =>
    lineI g m :: labI (l + 1) :: (code g.level (.a .bool) e ++ ins .jequz 0 ((l + 2 : Nat) : Int) ::
      (codeS g s (m - (e.toks.length + 2)) (l + 2) ⟨l + 1, l + 2, 0, 0, 0, c.ro⟩ ++
      [ins .jmp 0 ((l + 1 : Nat) : Int), labI (l + 2)]))
  | _, .repeat_ ls e, m, l, c =>
    lineI g m :: labI (l + 1) :: (codeS g ls (m - 1) (l + 2) ⟨l + 1, l + 2, 0, 0, 0, c.ro⟩ ++
      (code g.level (.a .bool) e ++ [ins .jequz 0 ((l + 1 : Nat) : Int), labI (l + 2)]))
  | _, .for_ x down a c s, m, l, y =>
    lineI g m :: (code g.level (.a x.ty) a ++ ref g.level .sts x :: (code g.level (.a x.ty) c ++
      labI (l + 1) :: ins .dup 0 0 :: ref g.level .lds x ::
      ins (if down then .jgt else .jlt) 0 ((l + 2 : Nat) : Int) ::
      (codeS g s (m - (a.toks.length + c.toks.length + 5)) (l + 3) ⟨l + 3, l + 2, 0, 0, 0, y.ro⟩ ++
      [labI (l + 3), ref g.level .lds x, ins (if down then .dec else .inc) 0 0, ref g.level .sts x,
        ins .jmp 0 ((l + 1 : Nat) : Int), labI (l + 2), ins .inds 0 (-2)])))
  | _, .case_ e cs, m, l, c =>
    lineI g m :: (code g.level .ordinal e ++
      (codeS g cs (m - (e.toks.length + 2)) (l + 2) ⟨c.cont, c.brk, c.adj - 2, l + 1, l + 2, c.ro⟩ ++
      [labI (l + 2), ins .inds 0 (-2)]))
  | _, .block ls, m, l, c => lineI g m :: codeS g ls (m - 1) l c
  | _, .break_, m, _, c => lineI g m :: leave c.adj c.brk
  | _, .continue_, m, _, c => lineI g m :: leave c.adj c.cont
  | _, .write ln _ i is, m, _, c =>
    lineI g m :: ins .ld 0 2 :: (codeIs g.level g.pad c.ro.length (i :: is) ++
      [if ln then ins .sysio 0 0x18 else ins .inds 0 (-2)])
  | _, .newline _, m, _, _ => [lineI g m, ins .ld 0 2, ins .sysio 0 0x18]
  | _, .read ln _ x xs, m, _, _ =>
    lineI g m :: ins .ld 0 0 :: (codeVs g.level (x :: xs) ++
      [if ln then ins .sysio 0 0x11 else ins .inds 0 (-2)])
  | _, .skipLine _, m, _, _ => [lineI g m, ins .ld 0 0, ins .sysio 0 0x11]
  | _, .call q args, m, _, _ => lineI g m :: (codeA g.level q.parms args ++ callCode q)
  | _, .one s, m, l, c => codeS g s m l c
  | _, .cons s ls, m, l, c =>
    codeS g s m l c ++ codeS g ls (m - (s.toks.length + 1)) (l + s.nlab)
      { c with ro := c.ro ++ s.ro g.pad }
  | _, .last k ks s _, m, l, c =>
    labI c.this :: (codeK (l + 2) (l + 1) k ks ++ labI (l + 2) ::
      (codeS g s (m - ((constToks k ks).length + 1)) (l + 2) c ++
      [ins .jmp 0 (c.fin : Int), labI (l + 1)]))
  | _, .more k ks s cs, m, l, c =>
    labI c.this :: (codeK (l + 2) (l + 1) k ks ++ labI (l + 2) ::
      (codeS g s (m - ((constToks k ks).length + 1)) (l + 2) c ++
      ins .jmp 0 (c.fin : Int) :: codeS g cs (m - ((constToks k ks).length + s.toks.length + 2))
        (l + 2 + s.nlab) { c with this := l + 1, ro := c.ro ++ s.ro g.pad }))
  | _, .otherwise s _, m, l, c => labI c.this :: codeS g s (m - 1) (l + 1) c

/-! ### The compiler generates it -/

/-- The state of the compiler agrees with the context. -/
structure Ready (s : CS) (l : Nat) (c : Ctx) : Prop where
  label : s.label = BitVec.ofNat 16 l
  cont : s.cont = BitVec.ofNat 16 c.cont
  brk : s.brk = BitVec.ofNat 16 c.brk
  adj : s.adj = c.adj
  cont' : c.cont ≤ 65535
  brk' : c.brk ≤ 65535
  ro : s.ro = c.ro

/-- `l` labels have been used, and the read-only data is `r`. -/
def setL (s : CS) (l : Nat) (r : List Byte) : CS :=
  { s with
    label := BitVec.ofNat 16 l
    ro := r }

theorem toNat_label {l : Nat} (h : l ≤ 65535) : ((BitVec.ofNat 16 l).toNat : Int) = l := by
  simp; omega

theorem newLabel_after {s : CS} {l : Nat} {q : List Byte} (h : s.label = BitVec.ofNat 16 l)
    (hq : s.ro = q) (r : List Tk) (c : List OpType) :
    newLabel (after s r c) = (BitVec.ofNat 16 (l + 1), after (setL s (l + 1) q) r c) := by
  subst hq
  have e : s.label + 1#16 = BitVec.ofNat 16 (l + 1) := by
    rw [h]; apply BitVec.eq_of_toNat_eq; simp
  show (s.label + 1#16, _) = _
  rw [e]
  show _ = (_, after { s with label := BitVec.ofNat 16 (l + 1), ro := s.ro } r c)
  rw [← e]
  rfl

theorem lab_after {l : Nat} (h : l ≤ 65535) (s : CS) (r : List Tk) (c : List OpType) :
    genData .label (BitVec.ofNat 16 l).toNat (after s r c) = after s r (c ++ [labI l]) := by
  rw [toNat_label h]
  exact genData_after (by omega) _ _ _

theorem jump_after (o : Op) {l : Nat} (h : l ≤ 65535) (s : CS) (r : List Tk) (c : List OpType) :
    genData o (BitVec.ofNat 16 l).toNat (after s r c) = after s r (c ++ [ins o 0 (l : Int)]) := by
  rw [toNat_label h]
  exact genData_after (by omega) _ _ _

theorem Follows.stops {rest : List Tk} (h : Follows rest) : Stops rest := by
  apply Ends.stops
  intro t ht
  obtain ⟨u, r, rfl, this⟩ := h
  cases ht
  simp only [List.mem_cons, List.not_mem_nil, or_false] at this
  rcases this with rfl | rfl | rfl | rfl | rfl <;> decide

theorem line_after (g : Cfg) (s : CS) (r : List Tk) (c : List OpType) :
    gen .line (g.line (after s r c).toks.length).1.toNat (g.line (after s r c).toks.length).2.toNat
      (after s r c) = after s r (c ++ [lineI g r.length]) := by
  refine gen_after ⟨?_, ?_⟩ _ _ _
  · have := (g.line r.length).1.isLt; simp only [after_toks]; omega
  · have := (g.line r.length).2.isLt; simp only [after_toks]; omega

/-- The equation of `statement`. -/
theorem statement_succ (g : Cfg) (n : Nat) (s s' : CS)
    (h : gen .line (g.line s.toks.length).1.toNat (g.line s.toks.length).2.toNat s = s') :
    statement g (n + 1) s =
    match s'.tok with
    | .var v =>
      match v.kind with
      | .int | .word | .bool => assignment g n .sts v.kind.et v s'.next
      | .shortInt | .shortWord | .char => assignment g n .stsb v.kind.et v s'.next
      | .longInt | .longWord => largeAssignment g n .stsm v.kind.et v s'.next
    | .int _ => none
    | .if_ => ifStatement g n s'
    | .case_ => caseStatement g n s'
    | .repeat_ => repeatStatement g n s'
    | .while_ => whileStatement g n s'
    | .for_ => forStatement g n s'
    | .begin_ => compound g n s'
    | .break_ => some (continueBreak s'.next.brk s'.next)
    | .continue_ => some (continueBreak s'.next.cont s'.next)
    | .write_ => writeProc g n s'
    | .writeln_ => writelnProc g n s'
    | .read_ => readProc g n s'
    | .readln_ => readlnProc g n s'
    | .proc q => procStatement g n q s'
    | .arr a => elementAssignment g n a s'.next
    | .other _ | .file _ | .str _ => none
    | _ => some s' := by
  subst h; rfl

section
variable (g : Cfg) (n : Nat) (s : CS) (r : List Tk) (c : List OpType)

theorem statement_if : statement g (n + 1) (after s (.if_ :: r) c) =
    ifStatement g n (after s (.if_ :: r) (c ++ [lineI g (r.length + 1)])) :=
  statement_succ g n _ _ (line_after g s _ c)
theorem statement_case : statement g (n + 1) (after s (.case_ :: r) c) =
    caseStatement g n (after s (.case_ :: r) (c ++ [lineI g (r.length + 1)])) :=
  statement_succ g n _ _ (line_after g s _ c)
theorem statement_repeat : statement g (n + 1) (after s (.repeat_ :: r) c) =
    repeatStatement g n (after s (.repeat_ :: r) (c ++ [lineI g (r.length + 1)])) :=
  statement_succ g n _ _ (line_after g s _ c)
theorem statement_while : statement g (n + 1) (after s (.while_ :: r) c) =
    whileStatement g n (after s (.while_ :: r) (c ++ [lineI g (r.length + 1)])) :=
  statement_succ g n _ _ (line_after g s _ c)
theorem statement_for : statement g (n + 1) (after s (.for_ :: r) c) =
    forStatement g n (after s (.for_ :: r) (c ++ [lineI g (r.length + 1)])) :=
  statement_succ g n _ _ (line_after g s _ c)
theorem statement_begin : statement g (n + 1) (after s (.begin_ :: r) c) =
    compound g n (after s (.begin_ :: r) (c ++ [lineI g (r.length + 1)])) :=
  statement_succ g n _ _ (line_after g s _ c)
theorem statement_break : statement g (n + 1) (after s (.break_ :: r) c) =
    some (continueBreak s.brk (after s r (c ++ [lineI g (r.length + 1)]))) :=
  statement_succ g n _ _ (line_after g s _ c)
theorem statement_continue : statement g (n + 1) (after s (.continue_ :: r) c) =
    some (continueBreak s.cont (after s r (c ++ [lineI g (r.length + 1)]))) :=
  statement_succ g n _ _ (line_after g s _ c)
theorem statement_write : statement g (n + 1) (after s (.write_ :: r) c) =
    writeProc g n (after s (.write_ :: r) (c ++ [lineI g (r.length + 1)])) :=
  statement_succ g n _ _ (line_after g s _ c)
theorem statement_writeln : statement g (n + 1) (after s (.writeln_ :: r) c) =
    writelnProc g n (after s (.writeln_ :: r) (c ++ [lineI g (r.length + 1)])) :=
  statement_succ g n _ _ (line_after g s _ c)
theorem statement_read : statement g (n + 1) (after s (.read_ :: r) c) =
    readProc g n (after s (.read_ :: r) (c ++ [lineI g (r.length + 1)])) :=
  statement_succ g n _ _ (line_after g s _ c)
theorem statement_readln : statement g (n + 1) (after s (.readln_ :: r) c) =
    readlnProc g n (after s (.readln_ :: r) (c ++ [lineI g (r.length + 1)])) :=
  statement_succ g n _ _ (line_after g s _ c)
theorem statement_proc (q : ProcSym) : statement g (n + 1) (after s (.proc q :: r) c) =
    procStatement g n q (after s (.proc q :: r) (c ++ [lineI g (r.length + 1)])) :=
  statement_succ g n _ _ (line_after g s _ c)
theorem statement_empty {t : Tk} (h : t ∈ [Tk.semi, .end_, .until_, .else_, .period]) :
    statement g (n + 1) (after s (t :: r) c) =
    some (after s (t :: r) (c ++ [lineI g (r.length + 1)])) := by
  simp only [List.mem_cons, List.not_mem_nil, or_false] at h
  rcases h with rfl | rfl | rfl | rfl | rfl <;> exact statement_succ g n _ _ (line_after g s _ c)
theorem statement_assignAt (a : Arr) : statement g (n + 1) (after s (a.tk :: r) c) =
    elementAssignment g n ⟨a.ty.kind, a.level, a.off, [(a.lo, a.ty.size)]⟩
      (after s r (c ++ [lineI g (r.length + 1)])) :=
  statement_succ g n _ _ (line_after g s _ c)
theorem statement_assign (x : Variable) : statement g (n + 1) (after s (x.tk :: r) c) =
    assignment g n (stO x.ty) x.ty.et ⟨x.ty.kind, x.level, x.off⟩
      (after s r (c ++ [lineI g (r.length + 1)])) := by
  obtain ⟨ty, lv, off⟩ := x
  cases ty with
  | num t => cases t <;> exact statement_succ g n _ _ (line_after g s _ c)
  | _ => exact statement_succ g n _ _ (line_after g s _ c)

end


/-- What the statement needs of its context. -/
structure Fine (b con : Bool) (l nlab need : Nat) (x : Ctx) : Prop where
  brk : b = true → x.brk ≠ 0
  cont : con = true → x.cont ≠ 0
  lab : l + nlab ≤ 65535
  adj : -32768 ≤ x.adj - 2 * need
  neg : x.adj ≤ 0

/-- How the functions of the compiler read statements. -/
def ParsesS (g : Cfg) (vars : Variable → Prop) (procs : Proc → Prop) : {k : SK} → S k → Prop
  | .stmt, st => ∀ (s : CS) (l m : Nat) (x : Ctx) (rest : List Tk) (c : List OpType) (b con : Bool),
      st.Ok vars procs b con → Ready s l x → Fine b con l st.nlab (st.need 0) x → Follows rest →
      (st.opn = true → rest.headD .period ≠ .else_) → m = st.toks.length + rest.length →
      ∃ N, ∀ n, N ≤ n → statement g n (after s (st.toks ++ rest) c) =
        some (after (setL s (l + st.nlab) (x.ro ++ st.ro g.pad)) rest (c ++ codeS g st m l x))
  | .list, ls => ∀ (s : CS) (l m : Nat) (x : Ctx) (t : Tk) (rest : List Tk) (c : List OpType)
      (b con : Bool),
      ls.Ok vars procs b con → Ready s l x → Fine b con l ls.nlab (ls.need 0) x → Follows rest →
      rest.headD .period ≠ .semi → rest.headD .period ≠ .else_ → m = ls.toks.length + rest.length →
      ∃ N, ∀ n, N ≤ n → statements g n (after s (t :: (ls.toks ++ rest)) c) =
        some (after (setL s (l + ls.nlab) (x.ro ++ ls.ro g.pad)) rest (c ++ codeS g ls m l x))
  | .cases, cs => ∀ (s : CS) (l m : Nat) (x : Ctx) (rest : List Tk) (c : List OpType)
      (b con : Bool) (ty : Ty),
      cs.Ok vars procs b con → cs.labels ty → Ready s l x → Fine b con l cs.nlab (cs.need 0) x →
      x.this ≤ 65535 → x.fin ≤ 65535 → m = cs.toks.length + rest.length →
      ∃ N, ∀ n, N ≤ n →
        caseLoop g n (BitVec.ofNat 16 x.this) (BitVec.ofNat 16 x.fin) (after s (cs.toks ++ rest) c) =
        some (after (setL s (l + cs.nlab) (x.ro ++ cs.ro g.pad)) rest (c ++ codeS g cs m l x))

theorem expr_after {g : Cfg} {vars : Variable → Prop} (hv : ∀ y, vars y → Usable g.level y)
    {e : E .expr} {x : Expect} {ty : Ty} (h : e.Ok vars x ty) (s : CS) {rest : List Tk}
    (hr : Stops rest) (c : List OpType) : ∃ N, ∀ n, N ≤ n →
      expression g n x.et (after s (e.toks ++ rest) c) =
        some (ty.et, after s rest (c ++ code g.level x e)) := by
  obtain ⟨N, hN⟩ := parses g e x ty rest (after s (e.toks ++ rest) c) h.2
    (fun v hv' => hv v (h.1 v hv')) rfl hr
  refine ⟨N, fun n hn => ?_⟩
  rw [hN n hn, after_after]

theorem assignment_after {g : Cfg} {vars : Variable → Prop} (hv : ∀ y, vars y → Usable g.level y)
    {e : E .expr} {x : Variable} (hx : vars x) (h : e.Ok vars (.a x.ty) x.ty) {o : Op}
    (ho : (level0 o).isSome) (s : CS)
    {rest : List Tk} (hr : Stops rest) (c : List OpType) : ∃ N, ∀ n, N ≤ n →
      assignment g n o x.ty.et ⟨x.ty.kind, x.level, x.off⟩
        (after s (.assign :: (e.toks ++ rest)) c) =
        some (after s rest (c ++ code g.level (.a x.ty) e ++ [ref g.level o x])) := by
  obtain ⟨N, hN⟩ := expr_after hv h s hr c
  refine ⟨N, fun n hn => ?_⟩
  have := hN n hn
  unfold assignment
  rw [expect_after]
  show (expression g n (Expect.a x.ty).et _ >>= _) = _
  rw [this]
  show some _ = _
  rw [ref_after (hv x hx) ho]

theorem stxO_level0 (t : Ty) : (level0 (stxO t)).isSome := by
  cases t with
  | num t => cases t <;> rfl
  | _ => rfl

theorem arrayIndex_after {g : Cfg} {vars : Variable → Prop} (hv : ∀ y, vars y → Usable g.level y)
    {a : Arr} (ha : a.Ok) {i : E .expr} (hi : i.Ok vars (.a (.num .integer)) (.num .integer))
    (s : CS) (rest : List Tk) (c : List OpType) : ∃ N, ∀ n, N ≤ n →
      arrayIndex g n true [(a.lo, a.ty.size)] (after s (.lbracket :: (i.toks ++ .rbracket :: rest)) c) =
        some (after s rest (c ++ code g.level (.a (.num .integer)) i ++ idxI a)) := by
  obtain ⟨N, hN⟩ := expr_after hv hi s (rest := .rbracket :: rest) ⟨rfl, rfl, rfl, fun h => by cases h⟩ c
  refine ⟨N + 1, fun n hn => ?_⟩
  obtain ⟨n, rfl⟩ : ∃ m, n = m + 1 := ⟨n - 1, by omega⟩
  rw [arrayIndex, show ET.integer = (Expect.a (.num .integer)).et from rfl,
    show (after s (.lbracket :: (i.toks ++ .rbracket :: rest)) c).next =
      after s (i.toks ++ .rbracket :: rest) c from rfl, hN n (by omega)]
  simp only [Option.bind_eq_bind, Option.bind_some]
  rw [index_after ha, after_tok, if_neg (by decide), expect_after]
  rfl

theorem elementAssignment_after {g : Cfg} {vars : Variable → Prop}
    (hv : ∀ y, vars y → Usable g.level y) {a : Arr} (ha : a.Ok) (hb : vars a.base)
    {i e : E .expr} (hi : i.Ok vars (.a (.num .integer)) (.num .integer)) (h : e.Ok vars (.a a.ty) a.ty)
    (s : CS) {rest : List Tk} (hr : Stops rest) (c : List OpType) : ∃ N, ∀ n, N ≤ n →
      elementAssignment g n ⟨a.ty.kind, a.level, a.off, [(a.lo, a.ty.size)]⟩
        (after s (.lbracket :: (i.toks ++ .rbracket :: .assign :: (e.toks ++ rest))) c) =
        some (after s rest (c ++ code g.level (.a (.num .integer)) i ++ idxI a ++
          code g.level (.a a.ty) e ++ [ref g.level (stxO a.ty) a.base])) := by
  obtain ⟨N, hN⟩ := arrayIndex_after hv ha hi s (.assign :: (e.toks ++ rest)) c
  obtain ⟨M, hM⟩ := assignment_after (x := a.base) hv hb h (stxO_level0 a.ty) s hr
    (c ++ code g.level (.a (.num .integer)) i ++ idxI a)
  refine ⟨max N M, fun n hn => ?_⟩
  unfold elementAssignment
  rw [after_tok, if_pos rfl, hN n (by omega)]
  simp only [Option.bind_eq_bind, Option.bind_some]
  have := hM n (by omega)
  rw [show a.base.ty = a.ty from rfl, show a.base.level = a.level from rfl,
    show a.base.off = a.off from rfl] at this
  rw [← this]
  show (match a.ty.kind with
    | .int | .word | .bool => assignment g n .stsx a.ty.kind.et ⟨a.ty.kind, a.level, a.off⟩ _
    | .shortInt | .shortWord | .char => assignment g n .stsxb a.ty.kind.et ⟨a.ty.kind, a.level, a.off⟩ _
    | .longInt | .longWord => largeAssignment g n .stsxm a.ty.kind.et ⟨a.ty.kind, a.level, a.off⟩ _) = _
  clear this hM hN h
  generalize a.ty = ty
  cases ty with
  | num t => cases t <;> rfl
  | _ => rfl

theorem Ready.set {s : CS} {l : Nat} {x : Ctx} (h : Ready s l x) (l' : Nat) :
    Ready (setL s l' x.ro) l' x :=
  ⟨rfl, h.cont, h.brk, h.adj, h.cont', h.brk', rfl⟩

theorem Ready.setR {s : CS} {l : Nat} {x : Ctx} (h : Ready s l x) (l' : Nat) (q : List Byte) :
    Ready (setL s l' q) l' { x with ro := q } :=
  ⟨rfl, h.cont, h.brk, h.adj, h.cont', h.brk', rfl⟩

theorem setL_setL (s : CS) (l l' : Nat) (q q' : List Byte) :
    setL (setL s l q) l' q' = setL s l' q' := rfl

theorem stO_level0 (t : Ty) : (level0 (stO t)).isSome = true := by
  cases t with
  | num t => cases t <;> rfl
  | _ => rfl

theorem leave_after {s : CS} {x : Ctx} (ha : s.adj = x.adj) {l : Nat} (hl : l ≤ 65535) (h0 : l ≠ 0)
    (h1 : -32768 ≤ x.adj) (h2 : x.adj ≤ 0) (r : List Tk) (c : List OpType) :
    continueBreak (BitVec.ofNat 16 l) (after s r c) = after s r (c ++ leave x.adj l) := by
  unfold continueBreak leave
  have e : BitVec.ofNat 16 l ≠ 0 := by
    intro h
    have := congrArg BitVec.toNat h
    simp at this
    omega
  have hadj : (after s r c).adj = x.adj := ha
  rw [if_neg e, hadj]
  by_cases h : x.adj = 0
  · rw [if_pos h, if_neg (by simp [h])]
    exact jump_after _ hl _ _ _
  · rw [if_neg h, if_pos (by simpa using h)]
    simp only
    rw [genData_after (by omega), jump_after _ hl]
    simp

theorem fits_n {k : Const} {ty : Ty} (h : k.fits ty) : k.n ≤ 65535 ∧
    ∃ w, constValue k.tk = some w ∧ w.toNat = k.n := by
  cases k with
  | int n =>
    cases ty with
    | num t =>
      have : n ≤ 65535 := by
        have h : n ≤ if t.signed then 32767 else 65535 := h
        split at h <;> omega
      refine ⟨this, _, rfl, ?_⟩
      simp [Const.n]; omega
    | _ => cases h
  | bool b =>
    cases ty with
    | bool =>
      have h : b = false := h
      subst h
      exact ⟨by decide, _, rfl, rfl⟩
    | _ => cases h
  | char c =>
    cases ty with
    | char =>
      have h : c.toNat < 128 := h
      refine ⟨by simp only [Const.n]; omega, _, rfl, ?_⟩
      simp [Const.n]; omega
    | _ => cases h

theorem consts_after {ty : Ty} {st nx : Nat} (hst : st ≤ 65535) (hnx : nx ≤ 65535) (ks : List Const) :
    ∀ (k : Const) (s : CS) (rest : List Tk) (c : List OpType), (∀ q ∈ k :: ks, q.fits ty) →
    ∀ n, ks.length < n →
      caseConsts n (BitVec.ofNat 16 st) (BitVec.ofNat 16 nx)
        (after s (constToks k ks ++ .colon :: rest) c) =
        some (after s (.colon :: rest) (c ++ codeK st nx k ks)) := by
  induction ks with
  | nil =>
    intro k s rest c hf n hn
    obtain ⟨h1, w, h2, h3⟩ := fits_n (hf k (by simp))
    obtain ⟨n, rfl⟩ : ∃ m, n = m + 1 := ⟨n - 1, by simp at hn; omega⟩
    unfold caseConsts
    simp only [constToks, List.cons_append, List.nil_append, genSimple_after, after_tok, h2, h3]
    rw [if_pos h1, genData_after (by omega)]
    simp only [after_next, after_tok]
    refine (if_neg (show ¬ Tk.colon = Tk.comma by simp)).trans ?_
    rw [jump_after _ hnx]
    simp [codeK]
  | cons k' ks ih =>
    intro k s rest c hf n hn
    obtain ⟨h1, w, h2, h3⟩ := fits_n (hf k (by simp))
    obtain ⟨n, rfl⟩ : ∃ m, n = m + 1 := ⟨n - 1, by simp at hn; omega⟩
    unfold caseConsts
    simp only [constToks, List.cons_append, genSimple_after, after_tok, h2, h3]
    rw [if_pos h1, genData_after (by omega)]
    simp only [after_next, after_tok]
    refine Eq.trans (b := caseConsts n (BitVec.ofNat 16 st) (BitVec.ofNat 16 nx)
      (genData .jequ (BitVec.ofNat 16 st).toNat (after s _ _)).next) rfl ?_
    rw [jump_after _ hst, after_next,
      ih k' s rest _ (fun q hq => hf q (List.mem_cons_of_mem _ hq)) n (by simp at hn; omega)]
    simp [codeK]

end Pas.Src
