import Verif.Lemmas.CompCall

/-! The compiler generates the code of statements. -/
namespace Pas.Src
open Pas.Spec Pas.Comp

variable {g : Cfg} {vars : Variable → Prop} {procs : Proc → Prop}

theorem setL_self {s : CS} {l : Nat} {x : Ctx} (hr : Ready s l x) : setL s l x.ro = s := by
  have h1 := hr.label
  have h2 := hr.ro
  cases s; simp only at h1 h2; subst h1; subst h2; rfl

theorem parse_empty : ParsesS g vars procs .empty := by
  intro s l m x rest c b con hok hr hf hfo hop hm
  obtain ⟨t, r, rfl, ht⟩ := hfo
  refine ⟨1, fun n hn => ?_⟩
  obtain ⟨n, rfl⟩ : ∃ m, n = m + 1 := ⟨n - 1, by omega⟩
  subst hm
  rw [S.toks, List.nil_append, statement_empty g n s r c ht]
  simp [codeS, S.toks, S.ro, S.nlab, setL_self hr]

theorem parse_assign (hv : ∀ y, vars y → Usable g.level y) (y : Variable) (e : E .expr) :
    ParsesS g vars procs (.assign y e) := by
  intro s l m x rest c b con hok hr hf hfo hop hm
  obtain ⟨N, hN⟩ := assignment_after hv hok.1 hok.2 (stO_level0 y.ty) s hfo.stops
    (c ++ [lineI g m])
  refine ⟨N + 1, fun n hn => ?_⟩
  obtain ⟨n, rfl⟩ : ∃ m, n = m + 1 := ⟨n - 1, by omega⟩
  have hm' : (Tk.assign :: (e.toks ++ rest)).length + 1 = m := by
    rw [hm]; simp [S.toks]; omega
  rw [S.toks, List.cons_append, List.cons_append, statement_assign, hm', hN n (by omega)]
  simp [codeS, S.ro, S.nlab, setL_self hr]

theorem parse_assignAt (hv : ∀ y, vars y → Usable g.level y) (a : Arr) (i e : E .expr) :
    ParsesS g vars procs (.assignAt a i e) := by
  intro s l m x rest c b con hok hr hf hfo hop hm
  obtain ⟨N, hN⟩ := elementAssignment_after hv hok.1 (hok.2.1 _ (Arr.base_mem hok.1)) hok.2.2.1 hok.2.2.2 s
    hfo.stops (c ++ [lineI g m])
  refine ⟨N + 1, fun n hn => ?_⟩
  obtain ⟨n, rfl⟩ : ∃ m, n = m + 1 := ⟨n - 1, by omega⟩
  have hm' : (Tk.lbracket :: (i.toks ++ .rbracket :: .assign :: (e.toks ++ rest))).length + 1 = m := by
    rw [hm]; simp [S.toks]; omega
  have ht : (S.assignAt a i e).toks ++ rest =
      a.tk :: .lbracket :: (i.toks ++ .rbracket :: .assign :: (e.toks ++ rest)) := by
    simp [S.toks]
  rw [ht, statement_assignAt, hm', hN n (by omega)]
  simp [codeS, S.ro, S.nlab, setL_self hr]

theorem parse_ifThen (hv : ∀ y, vars y → Usable g.level y) (e : E .expr) (st : S .stmt)
    (ih : ParsesS g vars procs st) : ParsesS g vars procs (.ifThen e st) := by
  intro s l m x rest c b con hok hr hf hfo hop hm
  obtain ⟨ho1, ho2⟩ := hok
  have hl : l + (1 + st.nlab) ≤ 65535 := hf.lab
  obtain ⟨N, hN⟩ := expr_after hv ho1 (setL s (l + 1) x.ro) (rest := .then_ :: (st.toks ++ rest))
    ⟨rfl, rfl, rfl, by simp⟩ (c ++ [lineI g m])
  obtain ⟨M, hM⟩ := ih (setL s (l + 1) x.ro) (l + 1) (m - (e.toks.length + 2)) x rest
    (c ++ [lineI g m] ++ code g.level (.a .bool) e ++ [ins .jequz 0 ((l + 1 : Nat) : Int)]) b con ho2
    (hr.set _) ⟨hf.brk, hf.cont, by omega, by
      have := hf.adj; simp only [S.need] at this; omega, hf.neg⟩ hfo
    (fun _ => hop rfl) (by rw [hm]; simp [S.toks]; omega)
  refine ⟨N + M + 2, fun n hn => ?_⟩
  obtain ⟨n, rfl⟩ : ∃ m, n = m + 1 + 1 := ⟨n - 2, by omega⟩
  have hm' : (e.toks ++ .then_ :: (st.toks ++ rest)).length + 1 = m := by
    rw [hm]; simp [S.toks]; omega
  have ht : (S.ifThen e st).toks ++ rest = .if_ :: (e.toks ++ .then_ :: (st.toks ++ rest)) := by
    simp [S.toks]
  rw [ht, statement_if, hm', ifStatement, newLabel_after hr.label hr.ro]
  simp only [after_next]
  have h1 := hN n (by omega)
  simp only [Expect.et, Ty.et] at h1
  rw [h1]
  simp only [Option.bind_eq_bind, Option.bind_some, after_tok, if_true, after_next]
  rw [jump_after _ (by omega), hM n (by omega)]
  simp only [Option.bind_some, after_tok']
  refine (if_neg (hop rfl)).trans ?_
  rw [lab_after (by omega)]
  simp [codeS, S.ro, S.nlab, setL_setL, Nat.add_assoc]

theorem parse_ifElse (hv : ∀ y, vars y → Usable g.level y) (e : E .expr) (st su : S .stmt)
    (ih : ParsesS g vars procs st) (ih' : ParsesS g vars procs su) : ParsesS g vars procs (.ifElse e st su) := by
  intro s l m x rest c b con hok hr hf hfo hop hm
  obtain ⟨ho1, ho2, ho3, ho4⟩ := hok
  have hl : l + (2 + st.nlab + su.nlab) ≤ 65535 := hf.lab
  have ha := hf.adj
  simp only [S.need] at ha
  obtain ⟨N, hN⟩ := expr_after hv ho1 (setL s (l + 1) x.ro)
    (rest := .then_ :: (st.toks ++ .else_ :: (su.toks ++ rest)))
    ⟨rfl, rfl, rfl, by simp⟩ (c ++ [lineI g m])
  obtain ⟨M, hM⟩ := ih (setL s (l + 1) x.ro) (l + 1) (m - (e.toks.length + 2)) x
    (.else_ :: (su.toks ++ rest))
    (c ++ [lineI g m] ++ code g.level (.a .bool) e ++ [ins .jequz 0 ((l + 1 : Nat) : Int)]) b con ho2
    (hr.set _) ⟨hf.brk, hf.cont, by omega, by omega, hf.neg⟩ ⟨_, _, rfl, by simp⟩
    (fun h => by rw [ho4] at h; cases h) (by rw [hm]; simp [S.toks]; omega)
  obtain ⟨K, hK⟩ := ih' (setL s (l + 2 + st.nlab) (x.ro ++ st.ro g.pad)) (l + 2 + st.nlab)
    (m - (e.toks.length + st.toks.length + 3)) { x with ro := x.ro ++ st.ro g.pad } rest
    (c ++ [lineI g m] ++ code g.level (.a .bool) e ++ [ins .jequz 0 ((l + 1 : Nat) : Int)] ++
      codeS g st (m - (e.toks.length + 2)) (l + 1) x ++
      [ins .jmp 0 ((l + 2 + st.nlab : Nat) : Int)] ++ [labI (l + 1)]) b con ho3
    (hr.setR _ _) ⟨hf.brk, hf.cont, by omega, by simp only; omega, hf.neg⟩ hfo hop
    (by rw [hm]; simp [S.toks]; omega)
  refine ⟨N + M + K + 2, fun n hn => ?_⟩
  obtain ⟨n, rfl⟩ : ∃ m, n = m + 1 + 1 := ⟨n - 2, by omega⟩
  have hm' : (e.toks ++ .then_ :: (st.toks ++ .else_ :: (su.toks ++ rest))).length + 1 = m := by
    rw [hm]; simp [S.toks]; omega
  have ht : (S.ifElse e st su).toks ++ rest =
      .if_ :: (e.toks ++ .then_ :: (st.toks ++ .else_ :: (su.toks ++ rest))) := by
    simp [S.toks]
  rw [ht, statement_if, hm', ifStatement, newLabel_after hr.label hr.ro]
  simp only [after_next]
  have h1 := hN n (by omega)
  simp only [Expect.et, Ty.et] at h1
  rw [h1]
  simp only [Option.bind_eq_bind, Option.bind_some, after_tok, if_true, after_next]
  rw [jump_after _ (by omega), hM n (by omega)]
  simp only [Option.bind_some, after_tok, if_true, setL_setL]
  rw [newLabel_after (l := l + 1 + st.nlab) (q := x.ro ++ st.ro g.pad) rfl rfl]
  have e1 : l + 1 + st.nlab + 1 = l + 2 + st.nlab := by omega
  simp only [after_next, e1, setL_setL]
  rw [jump_after _ (by omega), lab_after (by omega), hK n (by omega)]
  simp only [Option.bind_some, setL_setL]
  rw [lab_after (by omega)]
  simp [codeS, S.ro, S.nlab, setL_setL, Nat.add_assoc]

theorem parse_while (hv : ∀ y, vars y → Usable g.level y) (e : E .expr) (st : S .stmt)
    (ih : ParsesS g vars procs st) : ParsesS g vars procs (.while_ e st) := by
  intro s l m x rest c b con hok hr hf hfo hop hm
  obtain ⟨ho1, ho2⟩ := hok
  have hl : l + (2 + st.nlab) ≤ 65535 := hf.lab
  have ha := hf.adj
  have hn := hf.neg
  simp only [S.need] at ha
  let s1 : CS := { setL s (l + 2) x.ro with
      cont := BitVec.ofNat 16 (l + 1)
      brk := BitVec.ofNat 16 (l + 2)
      adj := 0 }
  obtain ⟨N, hN⟩ := expr_after hv ho1 s1
    (rest := .do_ :: (st.toks ++ rest)) ⟨rfl, rfl, rfl, by simp⟩ (c ++ [lineI g m] ++ [labI (l + 1)])
  obtain ⟨M, hM⟩ := ih s1 (l + 2) (m - (e.toks.length + 2)) ⟨l + 1, l + 2, 0, 0, 0, x.ro⟩ rest
    (c ++ [lineI g m] ++ [labI (l + 1)] ++ code g.level (.a .bool) e ++
      [ins .jequz 0 ((l + 2 : Nat) : Int)]) true true ho2
    ⟨rfl, rfl, rfl, rfl, by simp only; omega, by simp only; omega, rfl⟩
    ⟨by simp, by simp, by omega, by simp only; omega, by simp⟩ hfo
    hop (by rw [hm]; simp [S.toks]; omega)
  refine ⟨N + M + 2, fun n hn => ?_⟩
  obtain ⟨n, rfl⟩ : ∃ m, n = m + 1 + 1 := ⟨n - 2, by omega⟩
  have hm' : (e.toks ++ .do_ :: (st.toks ++ rest)).length + 1 = m := by
    rw [hm]; simp [S.toks]; omega
  have ht : (S.while_ e st).toks ++ rest = .while_ :: (e.toks ++ .do_ :: (st.toks ++ rest)) := by
    simp [S.toks]
  rw [ht, statement_while, hm', whileStatement, newLabel_after hr.label hr.ro]
  simp only
  rw [newLabel_after (l := l + 1) (q := x.ro) rfl rfl]
  simp only [setL_setL]
  have h1 := hN n (by omega)
  simp only [Expect.et, Ty.et] at h1
  rw [show ({ after (setL s (l + 1 + 1) x.ro) (Tk.while_ :: (e.toks ++ Tk.do_ :: (st.toks ++ rest)))
      (c ++ [lineI g m]) with
      cont := BitVec.ofNat 16 (l + 1)
      brk := BitVec.ofNat 16 (l + 1 + 1)
      adj := 0 } : CS) = after s1 (Tk.while_ :: (e.toks ++ Tk.do_ :: (st.toks ++ rest)))
      (c ++ [lineI g m]) from rfl]
  rw [after_next, lab_after (by omega), h1]
  simp only [Option.bind_eq_bind, Option.bind_some]
  rw [jump_after _ (by omega), expect_after, hM n (by omega)]
  simp only [Option.bind_some]
  rw [jump_after _ (by omega), lab_after (by omega)]
  show some (after (setL s (l + 2 + st.nlab) (x.ro ++ st.ro g.pad)) rest _) = _
  simp [codeS, S.ro, S.nlab, Nat.add_assoc]

theorem parse_repeat (hv : ∀ y, vars y → Usable g.level y) (ls : S .list) (e : E .expr)
    (ih : ParsesS g vars procs ls) : ParsesS g vars procs (.repeat_ ls e) := by
  intro s l m x rest c b con hok hr hf hfo hop hm
  obtain ⟨ho1, ho2⟩ := hok
  have hl : l + (2 + ls.nlab) ≤ 65535 := hf.lab
  have ha := hf.adj
  have hn := hf.neg
  simp only [S.need] at ha
  let s1 : CS := { setL s (l + 2) x.ro with
      cont := BitVec.ofNat 16 (l + 1)
      brk := BitVec.ofNat 16 (l + 2)
      adj := 0 }
  obtain ⟨M, hM⟩ := ih s1 (l + 2) (m - 1) ⟨l + 1, l + 2, 0, 0, 0, x.ro⟩ .repeat_
    (.until_ :: (e.toks ++ rest))
    (c ++ [lineI g m] ++ [labI (l + 1)]) true false ho1
    ⟨rfl, rfl, rfl, rfl, by simp only; omega, by simp only; omega, rfl⟩
    ⟨by simp, by simp, by omega, by simp only; omega, by simp⟩ ⟨_, _, rfl, by simp⟩
    (by simp) (by simp) (by rw [hm]; simp [S.toks]; omega)
  obtain ⟨N, hN⟩ := expr_after hv ho2 (setL s1 (l + 2 + ls.nlab) (x.ro ++ ls.ro g.pad)) hfo.stops
    (c ++ [lineI g m] ++ [labI (l + 1)] ++ codeS g ls (m - 1) (l + 2) ⟨l + 1, l + 2, 0, 0, 0, x.ro⟩)
  refine ⟨N + M + 2, fun n hn => ?_⟩
  obtain ⟨n, rfl⟩ : ∃ m, n = m + 1 + 1 := ⟨n - 2, by omega⟩
  have hm' : (ls.toks ++ .until_ :: (e.toks ++ rest)).length + 1 = m := by
    rw [hm]; simp [S.toks]; omega
  have ht : (S.repeat_ ls e).toks ++ rest =
      .repeat_ :: (ls.toks ++ .until_ :: (e.toks ++ rest)) := by
    simp [S.toks]
  rw [ht, statement_repeat, hm', repeatStatement, newLabel_after hr.label hr.ro]
  simp only
  rw [newLabel_after (l := l + 1) (q := x.ro) rfl rfl]
  simp only [setL_setL]
  have h1 := hN n (by omega)
  simp only [Expect.et, Ty.et] at h1
  rw [show ({ after (setL s (l + 1 + 1) x.ro) (Tk.repeat_ :: (ls.toks ++ Tk.until_ :: (e.toks ++ rest)))
      (c ++ [lineI g m]) with
      cont := BitVec.ofNat 16 (l + 1)
      brk := BitVec.ofNat 16 (l + 1 + 1)
      adj := 0 } : CS) = after s1 (Tk.repeat_ :: (ls.toks ++ Tk.until_ :: (e.toks ++ rest)))
      (c ++ [lineI g m]) from rfl]
  rw [lab_after (by omega), hM n (by omega)]
  simp only [Option.bind_eq_bind, Option.bind_some]
  rw [expect_after, h1]
  simp only [Option.bind_some]
  rw [jump_after _ (by omega), lab_after (by omega)]
  show some (after (setL s (l + 2 + ls.nlab) (x.ro ++ ls.ro g.pad)) rest _) = _
  simp [codeS, S.ro, S.nlab, Nat.add_assoc]

theorem parse_block (ls : S .list) (ih : ParsesS g vars procs ls) : ParsesS g vars procs (.block ls) := by
  intro s l m x rest c b con hok hr hf hfo hop hm
  obtain ⟨M, hM⟩ := ih s l (m - 1) x .begin_ (.end_ :: rest) (c ++ [lineI g m]) b con hok hr hf
    ⟨_, _, rfl, by simp⟩ (by simp) (by simp) (by rw [hm]; simp [S.toks]; omega)
  refine ⟨M + 2, fun n hn => ?_⟩
  obtain ⟨n, rfl⟩ : ∃ m, n = m + 1 + 1 := ⟨n - 2, by omega⟩
  have hm' : (ls.toks ++ .end_ :: rest).length + 1 = m := by
    rw [hm]; simp [S.toks]; omega
  have ht : (S.block ls).toks ++ rest = .begin_ :: (ls.toks ++ .end_ :: rest) := by
    simp [S.toks]
  rw [ht, statement_begin, hm', compound, hM n (by omega)]
  simp only [Option.bind_eq_bind, Option.bind_some, expect_after]
  simp [codeS, S.ro, S.nlab]

theorem parse_one (st : S .stmt) (ih : ParsesS g vars procs st) : ParsesS g vars procs (.one st) := by
  intro s l m x t rest c b con hok hr hf hfo hse hel hm
  obtain ⟨M, hM⟩ := ih s l m x rest c b con hok hr hf hfo (fun _ => hel) hm
  refine ⟨M + 1, fun n hn => ?_⟩
  obtain ⟨n, rfl⟩ : ∃ m, n = m + 1 := ⟨n - 1, by omega⟩
  rw [statements, after_next]
  simp only [S.toks]
  rw [hM n (by omega)]
  simp only [Option.bind_eq_bind, Option.bind_some, after_tok']
  refine (if_neg hse).trans ?_
  simp [codeS, S.ro, S.nlab]

theorem parse_cons (st : S .stmt) (ls : S .list) (ih : ParsesS g vars procs st)
    (ih' : ParsesS g vars procs ls) : ParsesS g vars procs (.cons st ls) := by
  intro s l m x t rest c b con hok hr hf hfo hse hel hm
  obtain ⟨ho1, ho2⟩ := hok
  have hl : l + (st.nlab + ls.nlab) ≤ 65535 := hf.lab
  have ha := hf.adj
  simp only [S.need] at ha
  obtain ⟨M, hM⟩ := ih s l m x (.semi :: (ls.toks ++ rest)) c b con ho1 hr
    ⟨hf.brk, hf.cont, by omega, by omega, hf.neg⟩ ⟨_, _, rfl, by simp⟩
    (by simp) (by rw [hm]; simp [S.toks]; omega)
  obtain ⟨N, hN⟩ := ih' (setL s (l + st.nlab) (x.ro ++ st.ro g.pad)) (l + st.nlab)
    (m - (st.toks.length + 1)) { x with ro := x.ro ++ st.ro g.pad } .semi rest
    (c ++ codeS g st m l x) b con ho2 (hr.setR _ _)
    ⟨hf.brk, hf.cont, by omega, by simp only; omega, hf.neg⟩ hfo hse hel (by rw [hm]; simp [S.toks]; omega)
  refine ⟨N + M + 1, fun n hn => ?_⟩
  obtain ⟨n, rfl⟩ : ∃ m, n = m + 1 := ⟨n - 1, by omega⟩
  have ht : (S.cons st ls).toks ++ rest = st.toks ++ .semi :: (ls.toks ++ rest) := by
    simp [S.toks]
  rw [ht, statements, after_next, hM n (by omega)]
  simp only [Option.bind_eq_bind, Option.bind_some, after_tok, if_true]
  rw [hN n (by omega)]
  simp [codeS, S.ro, S.nlab, setL_setL, Nat.add_assoc]

theorem parse_break : ParsesS g vars procs .break_ := by
  intro s l m x rest c b con hok hr hf hfo hop hm
  refine ⟨1, fun n hn => ?_⟩
  obtain ⟨n, rfl⟩ : ∃ m, n = m + 1 := ⟨n - 1, by omega⟩
  have hm' : rest.length + 1 = m := by rw [hm]; simp [S.toks]; omega
  have ha : -32768 ≤ x.adj := by have := hf.adj; simp only [S.need] at this; omega
  rw [S.toks, List.singleton_append, statement_break, hm', hr.brk,
    leave_after hr.adj hr.brk' (hf.brk hok) ha hf.neg]
  simp [S.nlab, S.ro, codeS, setL_self hr]

theorem parse_continue : ParsesS g vars procs .continue_ := by
  intro s l m x rest c b con hok hr hf hfo hop hm
  refine ⟨1, fun n hn => ?_⟩
  obtain ⟨n, rfl⟩ : ∃ m, n = m + 1 := ⟨n - 1, by omega⟩
  have hm' : rest.length + 1 = m := by rw [hm]; simp [S.toks]; omega
  have ha : -32768 ≤ x.adj := by have := hf.adj; simp only [S.need] at this; omega
  rw [S.toks, List.singleton_append, statement_continue, hm', hr.cont,
    leave_after hr.adj hr.cont' (hf.cont hok) ha hf.neg]
  simp [S.nlab, S.ro, codeS, setL_self hr]

theorem parse_case (hv : ∀ y, vars y → Usable g.level y) (e : E .expr) (cs : S .cases)
    (ih : ParsesS g vars procs cs) : ParsesS g vars procs (.case_ e cs) := by
  intro s l m x rest c b con hok hr hf hfo hop hm
  obtain ⟨ty, ho1, ho2, ho3⟩ := hok
  have hl : l + (2 + cs.nlab) ≤ 65535 := hf.lab
  have ha := hf.adj
  have hn := hf.neg
  simp only [S.need] at ha
  obtain ⟨N, hN⟩ := expr_after hv ho1 (setL s (l + 2) x.ro)
    (rest := .of_ :: (cs.toks ++ rest)) ⟨rfl, rfl, rfl, by simp⟩ (c ++ [lineI g m])
  let s1 : CS := { setL s (l + 2) x.ro with adj := x.adj - 2 }
  obtain ⟨M, hM⟩ := ih s1 (l + 2) (m - (e.toks.length + 2)) ⟨x.cont, x.brk, x.adj - 2, l + 1, l + 2, x.ro⟩
    rest (c ++ [lineI g m] ++ code g.level .ordinal e) b con ty ho3 ho2
    ⟨rfl, hr.cont, hr.brk, rfl, hr.cont', hr.brk', rfl⟩
    ⟨hf.brk, hf.cont, by omega, by simp only; omega, by simp only; omega⟩
    (by simp only; omega) (by simp only; omega) (by rw [hm]; simp [S.toks]; omega)
  refine ⟨N + M + 2, fun n hn => ?_⟩
  obtain ⟨n, rfl⟩ : ∃ m, n = m + 1 + 1 := ⟨n - 2, by omega⟩
  have hm' : (e.toks ++ .of_ :: (cs.toks ++ rest)).length + 1 = m := by
    rw [hm]; simp [S.toks]; omega
  have ht : (S.case_ e cs).toks ++ rest = .case_ :: (e.toks ++ .of_ :: (cs.toks ++ rest)) := by
    simp [S.toks]
  rw [ht, statement_case, hm', caseStatement, newLabel_after hr.label hr.ro]
  simp only
  rw [newLabel_after (l := l + 1) (q := x.ro) rfl rfl]
  simp only [setL_setL, after_next]
  have h1 := hN n (by omega)
  simp only [Expect.et] at h1
  rw [h1]
  simp only [Option.bind_eq_bind, Option.bind_some, expect_after]
  have h2 := hM n (by omega)
  simp only at h2
  rw [show ({ after (setL s (l + 1 + 1) x.ro) (cs.toks ++ rest)
      (c ++ [lineI g m] ++ code g.level .ordinal e) with
      adj := (after (setL s (l + 1 + 1) x.ro) (cs.toks ++ rest)
        (c ++ [lineI g m] ++ code g.level .ordinal e)).adj - 2 } : CS) =
      after s1 (cs.toks ++ rest) (c ++ [lineI g m] ++ code g.level .ordinal e) by
    show _ = after { setL s (l + 2) x.ro with adj := x.adj - 2 } _ _
    rw [← hr.adj]; rfl]
  rw [h2]
  simp only [Option.bind_some]
  rw [lab_after (by omega), genData_after (by omega)]
  have e3 : ∀ (k : Nat) (q : List Byte) (d : List OpType),
      ({ after (setL s1 k q) rest d with adj := (after (setL s1 k q) rest d).adj + 2 } : CS) =
      after (setL s k q) rest d := by
    intro k q d
    have : (after (setL s1 k q) rest d).adj + 2 = s.adj := by
      show x.adj - 2 + 2 = s.adj
      rw [hr.adj]; omega
    rw [this]; rfl
  rw [e3]
  simp [codeS, S.ro, S.nlab, Nat.add_assoc]

/-- The end of a case. -/
theorem const_head (k : Const) (ks : List Const) : ∃ t r, constToks k ks = t :: r ∧
    t ≠ .else_ ∧ t ≠ .end_ ∧ t ≠ .semi := by
  cases ks <;> cases k <;> exact ⟨_, _, rfl, by simp [Const.tk], by simp [Const.tk], by simp [Const.tk]⟩

theorem cases_head (cs : S .cases) : ∃ t r, cs.toks = t :: r ∧ t ≠ .end_ ∧ t ≠ .semi := by
  cases cs with
  | last k ks s semi =>
    obtain ⟨t, r, h1, h2⟩ := const_head k ks
    exact ⟨t, _, by rw [S.toks, h1]; rfl, h2.2⟩
  | more k ks s cs =>
    obtain ⟨t, r, h1, h2⟩ := const_head k ks
    exact ⟨t, _, by rw [S.toks, h1]; rfl, h2.2⟩
  | otherwise s semi => exact ⟨_, _, rfl, by simp, by simp⟩

theorem parse_otherwise (st : S .stmt) (semi : Bool) (ih : ParsesS g vars procs st) :
    ParsesS g vars procs (.otherwise st semi) := by
  intro s l m x rest c b con ty hok hlab hr hf ht1 ht2 hm
  have hl : l + (1 + st.nlab) ≤ 65535 := hf.lab
  have ha := hf.adj
  simp only [S.need] at ha
  obtain ⟨M, hM⟩ := ih (setL s (l + 1) x.ro) (l + 1) (m - 1) x
    ((if semi then [.semi, .end_] else [.end_]) ++ rest) (c ++ [labI x.this]) b con hok (hr.set _)
    ⟨hf.brk, hf.cont, by omega, by omega, hf.neg⟩
    (by cases semi <;> exact ⟨_, _, rfl, by simp⟩) (by cases semi <;> simp)
    (by rw [hm]; cases semi <;> simp [S.toks] <;> omega)
  refine ⟨M + 1, fun n hn => ?_⟩
  obtain ⟨n, rfl⟩ : ∃ m, n = m + 1 := ⟨n - 1, by omega⟩
  have ht : (S.otherwise st semi).toks ++ rest =
      .else_ :: (st.toks ++ ((if semi then [.semi, .end_] else [.end_]) ++ rest)) := by
    simp [S.toks]
  rw [ht, caseLoop, newLabel_after hr.label hr.ro]
  simp only [after_tok, if_true, after_next]
  rw [lab_after ht1, hM n (by omega)]
  simp only [Option.bind_eq_bind, Option.bind_some]
  cases semi with
  | true =>
    simp only [if_true, List.cons_append, List.nil_append, after_tok, after_next, expect_after]
    simp [codeS, S.ro, S.nlab, setL_setL, Nat.add_assoc]
  | false =>
    simp only [Bool.false_eq_true, if_false, List.cons_append, List.nil_append, after_tok]
    refine Eq.trans (b := some (CS.expect (after _ (.end_ :: rest) _) .end_)) rfl ?_
    rw [expect_after]
    simp [codeS, S.ro, S.nlab, setL_setL, Nat.add_assoc]

theorem parse_last (k : Const) (ks : List Const) (st : S .stmt) (semi : Bool)
    (ih : ParsesS g vars procs st) : ParsesS g vars procs (.last k ks st semi) := by
  intro s l m x rest c b con ty hok hlab hr hf ht1 ht2 hm
  have hl : l + (2 + st.nlab) ≤ 65535 := hf.lab
  have ha := hf.adj
  simp only [S.need] at ha
  have hK := consts_after (ty := ty) (st := l + 2) (nx := l + 1) (by omega) (by omega) ks k
    (setL s (l + 2) x.ro) (st.toks ++ ((if semi then [.semi, .end_] else [.end_]) ++ rest))
    (c ++ [labI x.this]) hlab
  obtain ⟨M, hM⟩ := ih (setL s (l + 2) x.ro) (l + 2) (m - ((constToks k ks).length + 1)) x
    ((if semi then [.semi, .end_] else [.end_]) ++ rest)
    (c ++ [labI x.this] ++ codeK (l + 2) (l + 1) k ks ++ [labI (l + 2)]) b con hok (hr.set _)
    ⟨hf.brk, hf.cont, by omega, by omega, hf.neg⟩
    (by cases semi <;> exact ⟨_, _, rfl, by simp⟩) (by cases semi <;> simp)
    (by rw [hm]; cases semi <;> simp [S.toks] <;> omega)
  refine ⟨M + ks.length + 2, fun n hn => ?_⟩
  obtain ⟨n, rfl⟩ : ∃ m, n = m + 1 := ⟨n - 1, by omega⟩
  have ht : (S.last k ks st semi).toks ++ rest = constToks k ks ++ .colon ::
      (st.toks ++ ((if semi then [.semi, .end_] else [.end_]) ++ rest)) := by
    simp [S.toks]
  obtain ⟨t, r, hh, hne, _⟩ := const_head k ks
  rw [ht, caseLoop, newLabel_after hr.label hr.ro]
  have htok : ∀ (s : CS) (r' : List Tk) (d : List OpType),
      (after s (constToks k ks ++ r') d).tok = t := by
    intro s r' d; rw [hh]; rfl
  simp only [htok]
  refine (if_neg hne).trans ?_
  rw [newLabel_after (l := l + 1) (q := x.ro) rfl rfl]
  simp only [setL_setL]
  rw [lab_after ht1]
  rw [hK n (by omega)]
  simp only [Option.bind_eq_bind, Option.bind_some, expect_after]
  rw [lab_after (by omega), hM n (by omega)]
  simp only [Option.bind_some, setL_setL]
  rw [jump_after _ ht2]
  cases semi with
  | true =>
    simp only [if_true, List.cons_append, List.nil_append, after_tok, after_next, true_or]
    rw [lab_after (by omega), after_next]
    simp [codeS, S.ro, S.nlab, Nat.add_assoc]
  | false =>
    simp only [Bool.false_eq_true, if_false, List.cons_append, List.nil_append, after_tok]
    refine Eq.trans (b := some ((genData .label (BitVec.ofNat 16 (l + 1)).toNat
      (after _ (.end_ :: rest) _)).next)) rfl ?_
    rw [lab_after (by omega), after_next]
    simp [codeS, S.ro, S.nlab, Nat.add_assoc]

theorem parse_more (k : Const) (ks : List Const) (st : S .stmt) (cs : S .cases)
    (ih : ParsesS g vars procs st) (ih' : ParsesS g vars procs cs) : ParsesS g vars procs (.more k ks st cs) := by
  intro s l m x rest c b con ty hok hlab hr hf ht1 ht2 hm
  obtain ⟨ho1, ho2⟩ := hok
  obtain ⟨hlab1, hlab2⟩ := hlab
  have hl : l + (2 + st.nlab + cs.nlab) ≤ 65535 := hf.lab
  have ha := hf.adj
  simp only [S.need] at ha
  have hK := consts_after (ty := ty) (st := l + 2) (nx := l + 1) (by omega) (by omega) ks k
    (setL s (l + 2) x.ro) (st.toks ++ .semi :: (cs.toks ++ rest))
    (c ++ [labI x.this]) hlab1
  obtain ⟨M, hM⟩ := ih (setL s (l + 2) x.ro) (l + 2) (m - ((constToks k ks).length + 1)) x
    (.semi :: (cs.toks ++ rest))
    (c ++ [labI x.this] ++ codeK (l + 2) (l + 1) k ks ++ [labI (l + 2)]) b con ho1 (hr.set _)
    ⟨hf.brk, hf.cont, by omega, by omega, hf.neg⟩
    ⟨_, _, rfl, by simp⟩ (by simp) (by rw [hm]; simp [S.toks]; omega)
  obtain ⟨N, hN⟩ := ih' (setL s (l + 2 + st.nlab) (x.ro ++ st.ro g.pad)) (l + 2 + st.nlab)
    (m - ((constToks k ks).length + st.toks.length + 2))
    { x with this := l + 1, ro := x.ro ++ st.ro g.pad } rest
    (c ++ [labI x.this] ++ codeK (l + 2) (l + 1) k ks ++ [labI (l + 2)] ++
      codeS g st (m - ((constToks k ks).length + 1)) (l + 2) x ++ [ins .jmp 0 (x.fin : Int)])
    b con ty ho2 hlab2
    ⟨rfl, hr.cont, hr.brk, hr.adj, hr.cont', hr.brk', rfl⟩
    ⟨hf.brk, hf.cont, by omega, by simp only; omega, hf.neg⟩
    (by simp only; omega) ht2 (by rw [hm]; simp [S.toks]; omega)
  refine ⟨N + M + ks.length + 2, fun n hn => ?_⟩
  obtain ⟨n, rfl⟩ : ∃ m, n = m + 1 := ⟨n - 1, by omega⟩
  have ht : (S.more k ks st cs).toks ++ rest = constToks k ks ++ .colon ::
      (st.toks ++ .semi :: (cs.toks ++ rest)) := by
    simp [S.toks]
  obtain ⟨t, r, hh, hne, _⟩ := const_head k ks
  obtain ⟨t', r', hh', hne', _⟩ := cases_head cs
  rw [ht, caseLoop, newLabel_after hr.label hr.ro]
  have htok : ∀ (s : CS) (r' : List Tk) (d : List OpType),
      (after s (constToks k ks ++ r') d).tok = t := by
    intro s r' d; rw [hh]; rfl
  have htok' : ∀ (s : CS) (r' : List Tk) (d : List OpType),
      (after s (cs.toks ++ r') d).tok = t' := by
    intro s r' d; rw [hh']; rfl
  simp only [htok]
  refine (if_neg hne).trans ?_
  rw [newLabel_after (l := l + 1) (q := x.ro) rfl rfl]
  simp only [setL_setL]
  rw [lab_after ht1]
  rw [hK n (by omega)]
  simp only [Option.bind_eq_bind, Option.bind_some, expect_after]
  rw [lab_after (by omega), hM n (by omega)]
  simp only [Option.bind_some, setL_setL]
  rw [jump_after _ ht2]
  simp only [if_true, after_tok, after_next, true_or, htok']
  refine (if_neg hne').trans ?_
  have h2 := hN n (by omega)
  simp only at h2
  rw [h2]
  simp [codeS, S.ro, S.nlab, setL_setL, Nat.add_assoc]

/-- The equation of `forStatement` (the one Lean would generate is expensive). -/
theorem for_succ (g : Cfg) (n : Nat) (s : CS) : forStatement g (n + 1) s = (do
    let (c, b, a) := (s.cont, s.brk, s.adj)
    let (forL, s) := newLabel s
    let (endL, s) := newLabel s
    let (contL, s) := newLabel s
    let s := { s with cont := contL, brk := endL, adj := 0 }
    let s := s.next
    match s.tok with
    | .var v =>
      if forKind v.kind = true then
        let s ← assignment g n .sts v.kind.et v s.next
        if s.tok = .downto_ ∨ s.tok = .to_ then
          let down := s.tok = .downto_
          let (_, s) ← expression g n v.kind.et s.next
          let s := s.expect .do_
          let s := genData .label forL.toNat s
          let s := stackRef g .lds v (genSimple .dup s)
          let s := genData (if down then .jgt else .jlt) endL.toNat s
          let s ← statement g n s
          let s := stackRef g .lds v (genData .label contL.toNat s)
          let s := stackRef g .sts v (genSimple (if down then .dec else .inc) s)
          let s := genData .jmp forL.toNat s
          let s := genData .inds (-2) (genData .label endL.toNat s)
          pure { s with cont := c, brk := b, adj := a }
        else none
      else
        let s := s.err
        pure { s with cont := c, brk := b, adj := a }
    | .other _ => none
    | _ =>
      let s := s.err
      pure { s with cont := c, brk := b, adj := a }) := rfl

theorem parse_for (hv : ∀ y, vars y → Usable g.level y) (y : Variable) (down : Bool)
    (ea ec : E .expr) (st : S .stmt) (ih : ParsesS g vars procs st) :
    ParsesS g vars procs (.for_ y down ea ec st) := by
  intro s l m x rest c b con hok hr hf hfo hop hm
  obtain ⟨hy, hty, hoa, hoc, _, hos⟩ := hok
  have hl : l + (3 + st.nlab) ≤ 65535 := hf.lab
  have ha := hf.adj
  have hn := hf.neg
  simp only [S.need] at ha
  let s1 : CS := { setL s (l + 3) x.ro with
      cont := BitVec.ofNat 16 (l + 3)
      brk := BitVec.ofNat 16 (l + 2)
      adj := 0 }
  obtain ⟨N, hN⟩ := assignment_after hv hy hoa (o := .sts) rfl s1
    (rest := (if down then .downto_ else .to_) :: (ec.toks ++ .do_ :: (st.toks ++ rest)))
    (by cases down <;> exact ⟨rfl, rfl, rfl, by simp⟩) (c ++ [lineI g m])
  obtain ⟨K, hK⟩ := expr_after hv hoc s1
    (rest := .do_ :: (st.toks ++ rest)) ⟨rfl, rfl, rfl, by simp⟩
    (c ++ [lineI g m] ++ code g.level (.a y.ty) ea ++ [ref g.level .sts y])
  obtain ⟨M, hM⟩ := ih s1 (l + 3) (m - (ea.toks.length + ec.toks.length + 5))
    ⟨l + 3, l + 2, 0, 0, 0, x.ro⟩ rest
    (c ++ [lineI g m] ++ code g.level (.a y.ty) ea ++ [ref g.level .sts y] ++
      code g.level (.a y.ty) ec ++ [labI (l + 1)] ++ [ins .dup 0 0] ++ [ref g.level .lds y] ++
      [ins (if down then .jgt else .jlt) 0 ((l + 2 : Nat) : Int)]) true true hos
    ⟨rfl, rfl, rfl, rfl, by simp only; omega, by simp only; omega, rfl⟩
    ⟨by simp, by simp, by omega, by simp only; omega, by simp⟩ hfo
    hop (by rw [hm]; simp [S.toks]; omega)
  refine ⟨N + K + M + 2, fun n hn => ?_⟩
  obtain ⟨n, rfl⟩ : ∃ m, n = m + 1 + 1 := ⟨n - 2, by omega⟩
  have hm' : (y.tk :: .assign :: (ea.toks ++ (if down then .downto_ else .to_) ::
      (ec.toks ++ .do_ :: (st.toks ++ rest)))).length + 1 = m := by
    rw [hm]; simp [S.toks]; omega
  have ht : (S.for_ y down ea ec st).toks ++ rest = .for_ :: y.tk :: .assign :: (ea.toks ++
      (if down then .downto_ else .to_) :: (ec.toks ++ .do_ :: (st.toks ++ rest))) := by
    simp [S.toks]
  rw [ht, statement_for, hm', for_succ, newLabel_after hr.label hr.ro]
  simp only
  rw [newLabel_after (l := l + 1) (q := x.ro) rfl rfl]
  simp only [setL_setL]
  rw [newLabel_after (l := l + 1 + 1) (q := x.ro) rfl rfl]
  simp only [setL_setL]
  rw [show ({ after (setL s (l + 1 + 1 + 1) x.ro) (.for_ :: y.tk :: .assign :: (ea.toks ++
      (if down then .downto_ else .to_) :: (ec.toks ++ .do_ :: (st.toks ++ rest))))
      (c ++ [lineI g m]) with
      cont := BitVec.ofNat 16 (l + 1 + 1 + 1)
      brk := BitVec.ofNat 16 (l + 1 + 1)
      adj := 0 } : CS) = after s1 (.for_ :: y.tk :: .assign :: (ea.toks ++
      (if down then .downto_ else .to_) :: (ec.toks ++ .do_ :: (st.toks ++ rest))))
      (c ++ [lineI g m]) from rfl]
  simp only [after_next, after_tok, Variable.tk]
  have hfk : forKind y.ty.kind = true := by rcases hty with h | h <;> rw [h] <;> rfl
  rw [if_pos hfk]
  have h1 := hN n (by omega)
  rw [kind_et, h1]
  simp only [Option.bind_eq_bind, Option.bind_some, after_tok, after_next]
  have h2 := hK n (by omega)
  simp only [Expect.et] at h2
  have h3 := hM n (by omega)
  have hdt : (if down = true then Tk.downto_ else .to_) = .downto_ ↔ down = true := by
    cases down <;> simp
  refine (if_pos (by cases down <;> simp)).trans ?_
  rw [h2]
  simp only [Option.bind_some, expect_after]
  rw [lab_after (by omega), genSimple_after, ref_after (hv y hy) rfl]
  have hj : ∀ {α : Type} (u v : α) [Decidable ((if down = true then Tk.downto_ else .to_) = .downto_)],
      (if (if down = true then Tk.downto_ else .to_) = .downto_ then u else v) =
      (if down = true then u else v) := by
    intro α u v _
    cases down <;> simp
  erw [hj, hj]
  rw [jump_after _ (by omega), h3]
  simp only [Option.bind_some]
  rw [lab_after (by omega), ref_after (hv y hy) rfl, genSimple_after, ref_after (hv y hy) rfl,
    jump_after _ (by omega), lab_after (by omega), genData_after (by omega)]
  show some (after (setL s (l + 3 + st.nlab) (x.ro ++ st.ro g.pad)) rest _) = _
  simp [codeS, S.ro, S.nlab, Nat.add_assoc]

/-- The compiler generates the code of the statement. -/
theorem parseS (hv : ∀ y, vars y → Usable g.level y) (hq : ∀ q, procs q → q.Ok g.level) {k : SK} (st : S k) : ParsesS g vars procs st := by
  induction st with
  | empty => exact parse_empty
  | assign x e => exact parse_assign hv x e
  | assignAt a i e => exact parse_assignAt hv a i e
  | ifThen e s ih => exact parse_ifThen hv e s ih
  | ifElse e s t ih ih' => exact parse_ifElse hv e s t ih ih'
  | while_ e s ih => exact parse_while hv e s ih
  | repeat_ l e ih => exact parse_repeat hv l e ih
  | for_ x down a c s ih => exact parse_for hv x down a c s ih
  | case_ e cs ih => exact parse_case hv e cs ih
  | block l ih => exact parse_block l ih
  | break_ => exact parse_break
  | continue_ => exact parse_continue
  | write ln file i is => exact parse_write hv ln file i is
  | newline parens => exact parse_newline parens
  | read ln file y ys => exact parse_read hv ln file y ys
  | skipLine parens => exact parse_skipLine parens
  | call q args => exact parse_call hv hq q args
  | one s ih => exact parse_one s ih
  | cons s l ih ih' => exact parse_cons s l ih ih'
  | last k ks s semi ih => exact parse_last k ks s semi ih
  | more k ks s cs ih ih' => exact parse_more k ks s cs ih ih'
  | otherwise s semi ih => exact parse_otherwise s semi ih

theorem constToks_length (k : Const) (ks : List Const) : 1 ≤ (constToks k ks).length := by
  cases ks <;> simp [constToks]

/-- A statement uses at most as many labels as it has tokens. -/
theorem nlab_le {k : SK} (st : S k) : st.nlab ≤ st.toks.length := by
  induction st with
  | last k ks s semi ih =>
    have := constToks_length k ks
    simp only [S.nlab, S.toks, List.length_append, List.length_cons]
    cases semi <;> simp <;> omega
  | more k ks s cs ih ih2 =>
    have := constToks_length k ks
    simp only [S.nlab, S.toks, List.length_append, List.length_cons]
    omega
  | otherwise s semi ih =>
    simp only [S.nlab, S.toks, List.length_append, List.length_cons]
    omega
  | _ => simp only [S.nlab, S.toks, List.length_append, List.length_cons, List.length_nil] <;> omega

end Pas.Src
