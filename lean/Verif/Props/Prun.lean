import Verif.Spec.Prun
import Verif.Spec.FileName
import Verif.Props.Startup
import Verif.Props.FileName
import Verif.Props.Chain

/-! C86: the command line of the run-time. -/
namespace Pas.Prun
open Pas.Poff Pas.Chain Pas.Comp Pas.Spec Pas.Props Pas.Src Pas.FileName

private theorem digits_number (t : List Byte) (h : ∀ b ∈ t, 48 ≤ b.toNat ∧ b.toNat ≤ 57)
    (rest : List Byte) (hr : ∀ b bs, rest = b :: bs → ¬ (48 ≤ b.toNat ∧ b.toNat ≤ 57)) (v : Nat) :
    digits v (t ++ rest) = t.foldl (fun v b => 10 * v + (b.toNat - 48)) v := by
  induction t generalizing v with
  | nil =>
    cases rest with
    | nil => rfl
    | cons b bs =>
      have := hr b bs rfl
      simp [digits, SysIo.isdigit, this]
  | cons b bs ih =>
    have hb := h b (by simp)
    simp only [List.cons_append, digits, SysIo.isdigit, hb, and_self, decide_true, if_true, List.foldl_cons]
    exact ih (fun c hc => h c (by simp [hc])) _

/-- C86: a number is read as it is written: blanks before it, a sign, and whatever follows the last digit
do not matter. -/
theorem C86_number (blanks t rest : List Byte) (n : Nat) (h : Number t n) (hn : n < 2 ^ 31)
    (hb : ∀ b ∈ blanks, b = 32#8 ∨ (9 ≤ b.toNat ∧ b.toNat ≤ 13))
    (hr : ∀ b bs, rest = b :: bs → ¬ (48 ≤ b.toNat ∧ b.toNat ≤ 57)) :
    atoi (blanks ++ t ++ rest) = .ok n ∧ atoi (blanks ++ 43#8 :: t ++ rest) = .ok n ∧
      atoi (blanks ++ 45#8 :: t ++ rest) = .ok (-n) := by
  obtain ⟨h0, h1, h2⟩ := h
  have hd := digits_number t h1 rest hr 0
  rw [h2] at hd
  have hbl : ∀ l : List Byte, (blanks ++ l).dropWhile SysIo.isspace = l.dropWhile SysIo.isspace := by
    intro l
    rw [List.dropWhile_append_of_pos]
    intro b hb'
    rcases hb b hb' with rfl | hh
    · decide
    · simp [SysIo.isspace, hh]
  have h31 : (n : Int) ≤ 2147483647 := by omega
  refine ⟨?_, ?_, ?_⟩
  · cases t with
    | nil => exact absurd rfl h0
    | cons c cs =>
      have hc := h1 c (by simp)
      have hs : SysIo.isspace c = false := by
        simp only [SysIo.isspace, decide_eq_false_iff_not]; omega
      have n1 : c ≠ 45#8 := by rintro rfl; simp at hc
      have n2 : c ≠ 43#8 := by rintro rfl; simp at hc
      rw [List.cons_append] at hd
      unfold atoi
      rw [List.append_assoc, hbl, List.cons_append, List.dropWhile_cons_of_neg (by simp [hs])]
      simp only [if_neg n1, if_neg n2, hd]
      rw [if_neg (by omega)]
  · unfold atoi
    rw [List.append_assoc, hbl, List.cons_append, List.dropWhile_cons_of_neg (by decide)]
    simp only [hd]
    rw [if_neg (show ¬ (43#8 : Byte) = 45#8 by decide), if_pos trivial, if_neg (by omega)]
  · unfold atoi
    rw [List.append_assoc, hbl, List.cons_append, List.dropWhile_cons_of_neg (by decide)]
    simp only [hd, if_true]
    rw [if_neg (by omega)]

example : Number [49#8, 48#8, 50#8, 52#8] 1024 := ⟨by simp, by decide, by decide⟩

private theorem atoi_number {t : List Byte} {n : Nat} (h : Number t n) (hn : n < 2 ^ 31) :
    atoi t = .ok n := by
  have := (C86_number [] t [] n h hn (by simp) (by simp)).1
  simpa using this

private theorem atoi_negative {t : List Byte} {n : Nat} (h : Number t n) (hn : n < 2 ^ 31) :
    atoi (45#8 :: t) = .ok (-n) := by
  have := (C86_number [] t [] n h hn (by simp) (by simp)).2.2
  simpa using this

private theorem number_unique {t : List Byte} {n m : Nat} (h : Number t n) (h' : Number t m) : n = m := by
  rw [← h.2.2, ← h'.2.2]

private theorem option_proper {o : Opt} (h : Proper o) (a : Args) : ∃ b, option a o = .ok (some b) ∧
    (match o with
      | .new t => ∀ n, Number t n → b = { a with hpSize := even n }
      | .stack t => ∀ n, Number t n → b = { a with stkSize := four n }
      | .string t => ∀ n, Number t n → b = { a with strSize := four n }
      | _ => b = { a with debugger := a.debugger + 1 }) := by
  cases h with
  | new hn hl =>
    rw [option, atoi_number hn (by omega)]
    simp only [Res.ok_bind]
    rw [if_neg (by omega)]
    refine ⟨_, rfl, fun m hm => ?_⟩
    have e := number_unique hn hm
    subst e
    simp [even]
  | stack hn hl hu =>
    rw [option, atoi_number hn (by omega)]
    simp only [Res.ok_bind]
    rw [if_neg (by omega), up4, if_neg (by omega)]
    refine ⟨_, rfl, fun m hm => ?_⟩
    have e := number_unique hn hm
    subst e
    simp [four]
  | string hn hu =>
    rw [option, atoi_number hn (by omega)]
    simp only [Res.ok_bind]
    rw [if_neg (by omega), up4, if_neg (by omega)]
    refine ⟨_, rfl, fun m hm => ?_⟩
    have e := number_unique hn hm
    subst e
    simp [four]
  | debug => exact ⟨_, rfl, rfl⟩

/-- What the options leave: the last of each kind counts. -/
private theorem options_proper (opts : List Opt) (h : ∀ o ∈ opts, Proper o) (a : Args) :
    ∃ b, options a opts = .ok (some b) ∧
      (∀ pre t post n, opts = pre ++ .new t :: post → (∀ t', .new t' ∉ post) → Number t n →
        b.hpSize = even n) ∧
      ((∀ t, .new t ∉ opts) → b.hpSize = a.hpSize) ∧
      (∀ pre t post n, opts = pre ++ .stack t :: post → (∀ t', .stack t' ∉ post) → Number t n →
        b.stkSize = four n) ∧
      ((∀ t, .stack t ∉ opts) → b.stkSize = a.stkSize) ∧
      (∀ pre t post n, opts = pre ++ .string t :: post → (∀ t', .string t' ∉ post) → Number t n →
        b.strSize = four n) ∧
      ((∀ t, .string t ∉ opts) → b.strSize = a.strSize) ∧
      b.debugger = a.debugger + opts.count .debug := by
  induction opts generalizing a with
  | nil => exact ⟨a, rfl, by simp, by simp, by simp, by simp, by simp, by simp, by simp⟩
  | cons o os ih =>
    obtain ⟨c, hc, hs⟩ := option_proper (h o (by simp)) a
    obtain ⟨b, hb, i1, i2, i3, i4, i5, i6, i7⟩ := ih (fun x hx => h x (by simp [hx])) c
    refine ⟨b, by simp only [options, hc, Res.ok_bind, hb], ?_, ?_, ?_, ?_, ?_, ?_, ?_⟩
    · intro pre t post n e hp hn
      cases pre with
      | nil =>
        simp only [List.nil_append, List.cons.injEq] at e
        obtain ⟨rfl, rfl⟩ := e
        rw [i2 hp, hs n hn]
      | cons x xs =>
        simp only [List.cons_append, List.cons.injEq] at e
        exact i1 xs t post n e.2 hp hn
    · intro hn
      rw [i2 (fun t ht => hn t (by simp [ht]))]
      have hp := h o (by simp)
      cases hp with
      | @new t _ _ _ => exact absurd (by simp) (hn t)
      | stack q => rw [hs _ q]
      | string q => rw [hs _ q]
      | debug => rw [hs]
    · intro pre t post n e hp hn
      cases pre with
      | nil =>
        simp only [List.nil_append, List.cons.injEq] at e
        obtain ⟨rfl, rfl⟩ := e
        rw [i4 hp, hs n hn]
      | cons x xs =>
        simp only [List.cons_append, List.cons.injEq] at e
        exact i3 xs t post n e.2 hp hn
    · intro hn
      rw [i4 (fun t ht => hn t (by simp [ht]))]
      have hp := h o (by simp)
      cases hp with
      | new q => rw [hs _ q]
      | @stack t _ _ _ _ => exact absurd (by simp) (hn t)
      | string q => rw [hs _ q]
      | debug => rw [hs]
    · intro pre t post n e hp hn
      cases pre with
      | nil =>
        simp only [List.nil_append, List.cons.injEq] at e
        obtain ⟨rfl, rfl⟩ := e
        rw [i6 hp, hs n hn]
      | cons x xs =>
        simp only [List.cons_append, List.cons.injEq] at e
        exact i5 xs t post n e.2 hp hn
    · intro hn
      rw [i6 (fun t ht => hn t (by simp [ht]))]
      have hp := h o (by simp)
      cases hp with
      | new q => rw [hs _ q]
      | stack q => rw [hs _ q]
      | @string t _ _ _ => exact absurd (by simp) (hn t)
      | debug => rw [hs]
    · rw [i7]
      have hp := h o (by simp)
      cases hp with
      | new q => rw [hs _ q]; simp
      | stack q => rw [hs _ q]; simp
      | string q => rw [hs _ q]; simp
      | debug => rw [hs]; simp; omega

private theorem asked_size {opts : List Opt} {k : List Byte → Opt} {d n : Nat} {f : Nat → Nat} {v w : Int}
    (h : Asked opts k d n) (hd : w = f d)
    (h1 : ∀ pre t post n, opts = pre ++ k t :: post → (∀ t', k t' ∉ post) → Number t n → v = f n)
    (h2 : (∀ t, k t ∉ opts) → v = w) : v = f n := by
  rcases h with ⟨pre, t, post, e, hp, hn⟩ | ⟨hn, rfl⟩
  · exact h1 pre t post n e hp hn
  · rw [h2 hn, hd]

private theorem asked_bound {opts : List Opt} (h : ∀ o ∈ opts, Proper o) {n : Nat} :
    Asked opts .stack 4096 n → 1024 ≤ n := by
  rintro (⟨pre, t, post, rfl, _, hn⟩ | ⟨_, rfl⟩)
  · cases h (.stack t) (by simp) with
    | stack q hl _ => rw [number_unique hn q]; exact hl
  · omega

private theorem word_of_int (n : Nat) (h : n < 65536) : (BitVec.ofInt 16 (n : Int)).toNat = n := by
  rw [BitVec.toNat_ofInt]; omega

private theorem prun_starts (disk : List Byte → Option (List Byte)) (m0 : Nat → Word)
    (files : HostFile → Option (List Byte)) (opts : List Opt) (hopts : ∀ o ∈ opts, Proper o)
    (path dir file stem : List Byte) (old : Option (List Byte)) (hp : IsPath path dir file)
    (hf : IsFile file stem old) (hdot : 46#8 ∉ dir) (hz : 0#8 ∉ path)
    (hlen : (newName dir stem old [111#8] false).length ≤ 40) (exe : List Byte)
    (hdisk : disk (newName dir stem old [111#8] false) = some exe)
    (str stk hp' : Nat) (hstr : Asked opts .string 0 str) (hstk : Asked opts .stack 4096 stk)
    (hhp : Asked opts .new 0 hp') {attr : Attr} {prog : List Byte} {maxpc : Word} {s : VM}
    (hload : loadExe exe (BitVec.ofInt 16 (four str : Nat)) (BitVec.ofInt 16 (four stk : Nat))
      (BitVec.ofInt 16 (even hp' : Nat)) = .ok (some (attr, prog, maxpc)))
    (hs : startUp attr m0 files = .ok s) :
    prun disk m0 files opts [path] = .ok (.runs s prog maxpc (decide (.debug ∈ opts))) := by
  obtain ⟨a, ha, a1, a2, a3, a4, a5, a6, a7⟩ := options_proper opts hopts defaults
  have e1 : a.hpSize = even hp' := asked_size hhp (by decide) a1 a2
  have e2 : a.stkSize = four stk := asked_size hstk (by decide) a3 a4
  have e3 : a.strSize = four str := asked_size hstr (by decide) a5 a6
  have hext := C51_extension_partial path dir file stem [111#8] old 41 false hp hf hdot hz (by simp)
  have hdbg : decide (0 < a.debugger) = decide (Opt.debug ∈ opts) := by
    rw [a7]
    simp only [defaults, Nat.zero_add, List.count_pos_iff]
  split at hext
  · omega
  · next buf hb =>
    have hn := hext.2.2
    unfold cstring at hn
    simp only [prun, ha, Res.ok_bind, hb, hn, hdisk, e1, e2, e3, hload, hs, hdbg]

/-- C86 (partial): with options as the usage text describes them (the sizes asked for, or the documented
ones where nothing is asked for: a stack of 4096 bytes, no string area and no heap; the last option of a
kind counts) and one file name that fits, `prun` loads that file (with the extension `.o` if it has none)
and starts its program in a machine with areas of at least these sizes and hardly more, under the debugger
exactly if `-d` is given.  Partial: the option `-a` is not among them; the areas must fit into 64 kilobytes
together; the heap must be tiny or must begin at a multiple of 16. -/
theorem C86_run_partial (disk : List Byte → Option (List Byte)) (m0 : Nat → Word)
    (files : HostFile → Option (List Byte)) (opts : List Opt) (hopts : ∀ o ∈ opts, Proper o)
    (path dir file stem : List Byte) (old : Option (List Byte)) (hp : IsPath path dir file)
    (hf : IsFile file stem old) (hdot : 46#8 ∉ dir) (hz : 0#8 ∉ path)
    (hlen : (newName dir stem old [111#8] false).length ≤ 40) (exe : List Byte)
    (hdisk : disk (newName dir stem old [111#8] false) = some exe) (entry : Word) (ro prog : List Byte)
    (maxpc : Word)
    (hexe : ∀ a b c, loadExe exe a b c = .ok (some (⟨entry, ro, a, b, c⟩, prog, maxpc)))
    (str stk hp' : Nat) (hstr : Asked opts .string 0 str) (hstk : Asked opts .stack 4096 stk)
    (hhp : Asked opts .new 0 hp')
    (hsum : str + ro.length + stk + hp' + 8 < 65536)
    (hheap : hp' ≤ 32 ∨ (four str + even ro.length + four stk) % 16 = 0) :
    ∃ s, prun disk m0 files opts [path] = .ok (.runs s prog maxpc (decide (.debug ∈ opts))) ∧
      Regions str stk hp' ro s ∧ s.pc = entry ∧ Fresh s ∧ StandardFiles files s := by
  have hmin := asked_bound hopts hstk
  have b1 : even hp' ≤ hp' + 1 ∧ hp' ≤ even hp' ∧ even (even hp') = even hp' := by unfold even; omega
  have b2 : four stk ≤ stk + 3 ∧ stk ≤ four stk ∧ even (four stk) = four stk := by
    unfold even four; omega
  have b3 : four str ≤ str + 3 ∧ str ≤ four str ∧ four str % 2 = 0 ∧ even (four str) = four str := by
    unfold even four; omega
  have b4 : even ro.length ≤ ro.length + 1 := by unfold even; omega
  have w1 := word_of_int (even hp') (by omega)
  have w2 := word_of_int (four stk) (by omega)
  have w3 := word_of_int (four str) (by omega)
  have hbase : heapBase ⟨entry, ro, BitVec.ofInt 16 (four str : Nat), BitVec.ofInt 16 (four stk : Nat),
      BitVec.ofInt 16 (even hp' : Nat)⟩ = four str + even ro.length + four stk := by
    simp only [heapBase, w2, w3, b2.2.2, b3.2.2.2]
  obtain ⟨s, hs, hm, hc, hfresh, hstd⟩ := C10_startup_partial
    ⟨entry, ro, BitVec.ofInt 16 (four str : Nat), BitVec.ofInt 16 (four stk : Nat),
      BitVec.ofInt 16 (even hp' : Nat)⟩ m0 files (by simp only [w3]; exact b3.2.2.1)
    (by rw [hbase]; simp only [w1, b1.2.2]; omega) (by simp only [w2]; omega)
    (by rw [hbase]; simp only [w1]; unfold even at *; omega)
  refine ⟨s, ?_, ?_, hm.entry, hfresh, hstd⟩
  · exact prun_starts disk m0 files opts hopts path dir file stem old hp hf hdot hz hlen exe hdisk str stk hp'
      hstr hstk hhp (hexe _ _ _) hs
  · have m1 := hm.strings
    have m2 := hm.constants
    have m3 := hm.stack
    have m4 := hm.heap
    have m5 := hm.total
    rw [hbase] at m5
    simp only [w1, w2, w3, b1.2.2] at m1 m2 m3 m4 m5
    exact ⟨by omega, m2, hc, by omega, by omega, by omega⟩

/-- C86 (partial), from the text of a program to its execution under `prun`: the file with the text of a
correct program is compiled, whatever calls put the result into the object file it is written, finalized and
linked, and `prun` with the name of the executable and with proper options starts it; when its statements
come to an end with the stack that has been asked for, the machine stops regularly, the standard output has
what the meaning of the statements says, and no other file has changed.  Partial: as `C78_source_partial`
and `C86_run_partial`. -/
theorem C86_source_partial {P : Source} {b : S .list} (ok : P.Ok b) {text : List Byte}
    (hw : Written text (.tk (.other 0x9d) :: P.toks)) (h0 : 0#8 ∉ text)
    (hs : P.size ≤ 32768) (hl : P.procs.toks.length + b.toks.length ≤ 65534) (hd : b.need 0 ≤ 16384)
    (line : Nat → Byte × Word) (pad : Byte) :
    ∃ N obj, (∀ n, N ≤ n → compileFile line pad n text = .ok (some obj)) ∧
      ∀ (os : List ObjOp) (name fileName : List Byte), (∀ o ∈ os, o.WF) → costs os < 2 ^ 24 →
        Emits os obj name fileName →
        ∃ p o1 o2 exe, runOps create os = .ok p ∧ fileOf p = .ok o1 ∧ poptFile o1 = .ok (some o2) ∧
          plinkFiles [o2] = .ok (some exe) ∧
          ∀ (disk : List Byte → Option (List Byte)) (m0 : Nat → Word) (host : HostFile → Option (List Byte))
            (opts : List Opt) (path dir file stem : List Byte) (old : Option (List Byte)),
            (∀ o ∈ opts, Proper o) → IsPath path dir file → IsFile file stem old → 46#8 ∉ dir →
            0#8 ∉ path → (newName dir stem old [111#8] false).length ≤ 40 →
            disk (newName dir stem old [111#8] false) = some exe →
            ∀ str stk hp, Asked opts .string 0 str → Asked opts .stack 4096 stk → Asked opts .new 0 hp →
            ∃ (ro prog : List Byte) (maxpc : Word), prog.length ≤ 65535 →
              str + ro.length + stk + hp + 8 < 65536 →
              (hp ≤ 32 ∨ (four str + even ro.length + four stk) % 16 = 0) →
              ∃ s, prun disk m0 host opts [path] = .ok (.runs s prog maxpc (decide (.debug ∈ opts))) ∧
                ∀ pl : Platform, OrdinaryPlatform pl →
                  ∀ d, 10 + even P.size + 2 * b.need (callRoom P.decls d) + 4 ≤ stk →
                  ∀ (σ τ : Store) (written : List Byte) (left : Option Inp),
                  Exec (P.calls d) (.list b) ⟨σ, some ((host .stdout).getD []), some ⟨false, (host .stdin).getD []⟩⟩
                    .normal ⟨τ, some written, left⟩ →
                  (P.env s.spb.toNat).Holds s.mem σ →
                  ∃ n t, runFor (machine pl) prog maxpc n s = .ok (eEXIT, t) ∧
                    fileText t .stdout = written ∧ ∀ f, f ≠ .stdout → t.io.files f = host f := by
  obtain ⟨N, obj, h1, h2⟩ := C78_source_partial ok hw h0 hs hl hd line pad
  refine ⟨N, obj, h1, fun os name fileName hwf hcost he => ?_⟩
  obtain ⟨p, o1, o2, exe, c1, c2, c3, c4, c5⟩ := h2 os name fileName hwf hcost he
  refine ⟨p, o1, o2, exe, c1, c2, c3, c4, ?_⟩
  intro disk m0 host opts path dir file stem old hopts hp hf hdot hz hlen hdisk str stk hp' hstr hstk hhp
  obtain ⟨attr, prog, maxpc, d1, d2⟩ := c5 (BitVec.ofInt 16 (four str : Nat))
    (BitVec.ofInt 16 (four stk : Nat)) (BitVec.ofInt 16 (even hp' : Nat)) m0 host
  refine ⟨attr.rodata, prog, maxpc, fun g1 g2 g3 => ?_⟩
  have hmin := asked_bound hopts hstk
  have b1 : even hp' ≤ hp' + 1 ∧ hp' ≤ even hp' ∧ even (even hp') = even hp' := by unfold even; omega
  have b2 : four stk ≤ stk + 3 ∧ stk ≤ four stk ∧ even (four stk) = four stk := by
    unfold even four; omega
  have b3 : four str ≤ str + 3 ∧ str ≤ four str ∧ four str % 2 = 0 ∧ even (four str) = four str := by
    unfold even four; omega
  have b4 : even attr.rodata.length ≤ attr.rodata.length + 1 := by unfold even; omega
  have w1 := word_of_int (even hp') (by omega)
  have w2 := word_of_int (four stk) (by omega)
  have w3 := word_of_int (four str) (by omega)
  rw [w1, w2, w3] at d2
  obtain ⟨s, f1, f2⟩ := d2 g1 b3.2.2.1 (by omega) (by omega) (by
    rw [b3.2.2.2, b2.2.2]
    unfold even at *; omega)
  refine ⟨s, prun_starts disk m0 host opts hopts path dir file stem old hp hf hdot hz hlen exe hdisk str stk hp'
      hstr hstk hhp d1 f1, ?_⟩
  intro pl hpl d hroom σ τ written left hex hho
  obtain ⟨n, t, r1, r2, _, r4⟩ := f2 pl hpl d (by omega) σ τ written left hex hho
  exact ⟨n, t, r1, r2, r4⟩

/-- Runs all tools, and the program with `prun`: `w.o` is the only file there is. -/
def runPrun (os : List ObjOp) (opts : List Opt) (name : List Byte) (n : Nat) : Option (List Byte) :=
  match runOps create os with
  | .ok p => match fileOf p with
    | .ok o1 => match poptFile o1 with
      | .ok (some o2) => match plinkFiles [o2] with
        | .ok (some exe) =>
          match prun (fun f => if f = [119, 46, 111] then some exe else none) (fun _ => 0) (fun _ => none)
              opts [name] with
          | .ok (.runs s prog maxpc false) => match runFor (machine barePlatform) prog maxpc n s with
            | .ok (e, t) => if e = eEXIT then some (fileText t .stdout) else none
            | _ => none
          | _ => none
        | _ => none
      | _ => none
    | _ => none
  | _ => none

set_option maxRecDepth 20000 in
/-- The text of the example of `C78_source_partial`, compiled, linked and run with `prun -s 1030 w`. -/
example : runPrun writeOps [.stack [49, 48, 51, 48]] [119] 200 = some written := by decide +kernel

/-- C86: an option that the usage text rules out is refused, wherever it stands behind proper options. -/
theorem C86_refused (disk : List Byte → Option (List Byte)) (m0 : Nat → Word)
    (files : HostFile → Option (List Byte)) (pre post : List Opt) (o : Opt) (names : List (List Byte))
    (hpre : ∀ x ∈ pre, Proper x) (ho : Wrong o) :
    prun disk m0 files (pre ++ o :: post) names = .ok .usage := by
  have h : ∀ a, options a (pre ++ o :: post) = .ok none := by
    induction pre with
    | nil =>
      intro a
      have : option a o = .ok none := by
        cases ho with
        | big h1 h2 h3 =>
          rw [option, atoi_number h1 h3]
          simp only [Res.ok_bind]
          rw [if_pos (by omega)]
        | negative h1 h2 h3 =>
          rw [option, atoi_negative h1 h3]
          simp only [Res.ok_bind]
          rw [if_pos (by omega)]
        | small h1 h2 =>
          rw [option, atoi_number h1 (by omega)]
          simp only [Res.ok_bind]
          rw [if_pos (by omega)]
        | negativeStack h1 h2 =>
          rw [option, atoi_negative h1 h2]
          simp only [Res.ok_bind]
          rw [if_pos (by omega)]
        | negativeString h1 h2 h3 =>
          rw [option, atoi_negative h1 h3]
          simp only [Res.ok_bind]
          rw [if_pos (by omega)]
        | help => rfl
        | other => rfl
      simp only [List.nil_append, options, this, Res.ok_bind]
    | cons x xs ih =>
      intro a
      obtain ⟨b, hb, _⟩ := option_proper (hpre x (by simp)) a
      simp only [List.cons_append, options, hb, Res.ok_bind]
      exact ih (fun y hy => hpre y (by simp [hy])) b
  simp only [prun, h, Res.ok_bind]

/-- C86: there must be exactly one file name. -/
theorem C86_one_name (disk : List Byte → Option (List Byte)) (m0 : Nat → Word)
    (files : HostFile → Option (List Byte)) (opts : List Opt) (names : List (List Byte))
    (hopts : ∀ x ∈ opts, Proper x) (hn : names.length ≠ 1) :
    prun disk m0 files opts names = .ok .usage := by
  obtain ⟨a, ha, _⟩ := options_proper opts hopts defaults
  simp only [prun, ha, Res.ok_bind]
  match names, hn with
  | [], _ => rfl
  | [_], h => exact absurd rfl h
  | _ :: _ :: _, _ => rfl

/-- C86: what is not there, or is no executable, is reported. -/
theorem C86_not_loaded (disk : List Byte → Option (List Byte)) (m0 : Nat → Word)
    (files : HostFile → Option (List Byte)) (opts : List Opt) (hopts : ∀ o ∈ opts, Proper o)
    (path dir file stem : List Byte) (old : Option (List Byte)) (hp : IsPath path dir file)
    (hf : IsFile file stem old) (hdot : 46#8 ∉ dir) (hz : 0#8 ∉ path)
    (hlen : (newName dir stem old [111#8] false).length ≤ 40)
    (hdisk : ∀ exe, disk (newName dir stem old [111#8] false) = some exe →
      ∀ a b c, loadExe exe a b c = .ok none) :
    prun disk m0 files opts [path] = .ok .notLoaded := by
  obtain ⟨a, ha, _⟩ := options_proper opts hopts defaults
  have hext := C51_extension_partial path dir file stem [111#8] old 41 false hp hf hdot hz (by simp)
  split at hext
  · omega
  · next buf hb =>
    have hn := hext.2.2
    unfold cstring at hn
    simp only [prun, ha, Res.ok_bind, hb, hn]
    cases hd : disk (newName dir stem old [111#8] false) with
    | none => rfl
    | some exe => simp only [hdisk exe hd, Res.ok_bind]

/-- Options that are proper: `-s 2048 -n 10 -d -s 1030`. -/
def sample : List Opt := [.stack [50#8, 48#8, 52#8, 56#8], .new [49#8, 48#8], .debug,
  .stack [49#8, 48#8, 51#8, 48#8]]

/-- The options of the example, what they ask for, and options that are wrong. -/
example : (∀ o ∈ sample, Proper o) ∧ Asked sample .stack 4096 1030 ∧ Asked sample .new 0 10 ∧
    Asked sample .string 0 0 ∧ Wrong (.new [51#8, 50#8, 55#8, 54#8, 56#8]) ∧
    Wrong (.stack [49#8, 48#8, 50#8, 51#8]) := by
  have n1 : Number [50#8, 48#8, 52#8, 56#8] 2048 := ⟨by simp, by decide, by decide⟩
  have n2 : Number [49#8, 48#8] 10 := ⟨by simp, by decide, by decide⟩
  have n3 : Number [49#8, 48#8, 51#8, 48#8] 1030 := ⟨by simp, by decide, by decide⟩
  have n4 : Number [51#8, 50#8, 55#8, 54#8, 56#8] 32768 := ⟨by simp, by decide, by decide⟩
  have n5 : Number [49#8, 48#8, 50#8, 51#8] 1023 := ⟨by simp, by decide, by decide⟩
  refine ⟨?_, .inl ⟨[_, _, _], _, [], rfl, by simp, n3⟩, .inl ⟨[_], _, [_, _], rfl, by simp, n2⟩,
    .inr ⟨by simp [sample], rfl⟩, .big n4 (by omega) (by omega), .small n5 (by omega)⟩
  intro o ho
  simp only [sample, List.mem_cons, List.not_mem_nil, or_false] at ho
  rcases ho with rfl | rfl | rfl | rfl
  · exact .stack n1 (by omega) (by omega)
  · exact .new n2 (by omega)
  · exact .debug
  · exact .stack n3 (by omega) (by omega)

/-- An executable of one instruction, with read-only data. -/
def exeFile (ro : List ObjOp) : List Byte :=
  match runOps create ([.ftype 1 [], .arch 0, .prog 0] ++ ro) with
  | .ok p => match fileOf p with
    | .ok f => f
    | _ => []
  | _ => []

private theorem loads_of {f : List Byte} {entry : Word} {ro prog : List Byte}
    (h : (match readFile f with
      | .ok (.ok q) => decide (q.hdr.ftype = 1#8 ∧ q.hdr.arch = 0#8 ∧ q.hdr.entry.truncate 16 = entry ∧
          q.data .rodata = ro ∧ q.data .text = prog)
      | _ => false) = true) (a b c : Word) :
    loadExe f a b c = .ok (some (⟨entry, ro, a, b, c⟩, prog, BitVec.ofNat 16 prog.length)) := by
  split at h
  · next q hq =>
    obtain ⟨h1, h2, rfl, rfl, rfl⟩ := of_decide_eq_true h
    simp only [loadExe, hq, Res.ok_bind]
    rw [if_neg (by simp [h1]), if_neg (by simp [h2])]
  · cases h

set_option maxRecDepth 20000 in
/-- There are executables as the theorems want them, without constants and with two bytes of them. -/
example : (∀ a b c, loadExe (exeFile []) a b c = .ok (some (⟨0#16, [], a, b, c⟩, [0#8], 1#16))) ∧
    (∀ a b c, loadExe (exeFile [.ro [0#8] 0#8]) a b c =
      .ok (some (⟨0#16, [0#8, 0#8], a, b, c⟩, [0#8], 1#16))) :=
  ⟨loads_of (by decide +kernel), loads_of (by decide +kernel)⟩

/-- Violation of C86: the documented option `-a` is refused, whatever its argument. -/
theorem C86_violation_alloc (disk : List Byte → Option (List Byte)) (m0 : Nat → Word)
    (files : HostFile → Option (List Byte)) (t : List Byte) (post : List Opt) (names : List (List Byte)) :
    prun disk m0 files (.alloc t :: post) names = .ok .usage := rfl

/-- Violation of C86: a stack of 65536 bytes is accepted, but there is none: the size is cut to 16 bits, and
setting up the frame of the main program writes outside of the memory. -/
theorem C86_violation_size (m0 : Nat → Word) (files : HostFile → Option (List Byte)) (exe : List Byte)
    (entry : Word) (prog : List Byte) (maxpc : Word)
    (hexe : ∀ a b c, loadExe exe a b c = .ok (some (⟨entry, [], a, b, c⟩, prog, maxpc))) :
    prun (fun _ => some exe) m0 files [.stack [54#8, 53#8, 53#8, 51#8, 54#8]] [[112#8]] = .ub := by
  have h : options defaults [.stack [54#8, 53#8, 53#8, 51#8, 54#8]] = .ok (some ⟨0, 65536, 0, 0⟩) := rfl
  have hs : startUp ⟨entry, [], 0#16, 0#16, 0#16⟩ m0 files = .ub := by with_unfolding_all rfl
  simp only [prun, h, Res.ok_bind]
  have he : extension [112#8] [111#8] 41 false = some [112#8, 46#8, 111#8, 0#8] := by decide
  simp only [he, hexe, Res.ok_bind]
  rw [show (BitVec.ofInt 16 65536 : Word) = 0#16 from rfl, show (BitVec.ofInt 16 0 : Word) = 0#16 from rfl, hs]
  rfl

/-- Violation of C86: a file name that is too long is not reported: `prun` goes on with a name that it has
not set. -/
theorem C86_violation_name (disk : List Byte → Option (List Byte)) (m0 : Nat → Word)
    (files : HostFile → Option (List Byte)) (opts : List Opt) (hopts : ∀ o ∈ opts, Proper o) :
    prun disk m0 files opts [List.replicate 39 97#8] = .ub := by
  obtain ⟨a, ha, _⟩ := options_proper opts hopts defaults
  have he : extension (List.replicate 39 97#8) [111#8] 41 false = none := by decide
  simp only [prun, ha, Res.ok_bind, he]

/-- Violation of C86: a heap that is asked for as documented can make the start-up write outside of the
memory (with constants of two bytes and the default stack, here 64 bytes of heap). -/
theorem C86_violation_heap (exe : List Byte) (prog : List Byte) (maxpc : Word)
    (hexe : ∀ a b c, loadExe exe a b c = .ok (some (⟨0#16, [0#8, 0#8], a, b, c⟩, prog, maxpc))) :
    prun (fun _ => some exe) (fun _ => 0#16) (fun _ => none) [.new [54#8, 52#8]] [[112#8]] = .ub := by
  have h : options defaults [.new [54#8, 52#8]] = .ok (some ⟨0, 4096, 64, 0⟩) := rfl
  have hs : startUp ⟨0#16, [0#8, 0#8], 0#16, 4096#16, 64#16⟩ (fun _ => 0#16) (fun _ => none) = .ub := by
    have : (match startUp ⟨0#16, [0#8, 0#8], 0#16, 4096#16, 64#16⟩ (fun _ => 0#16) (fun _ => none) with
      | .ub => true
      | _ => false) = true := by decide +kernel
    split at this
    · assumption
    · cases this
  simp only [prun, h, Res.ok_bind]
  have he : extension [112#8] [111#8] 41 false = some [112#8, 46#8, 111#8, 0#8] := by decide
  simp only [he, hexe, Res.ok_bind]
  rw [show (BitVec.ofInt 16 64 : Word) = 64#16 from rfl, show (BitVec.ofInt 16 0 : Word) = 0#16 from rfl,
    show (BitVec.ofInt 16 4096 : Word) = 4096#16 from rfl, hs]
  rfl

end Pas.Prun
